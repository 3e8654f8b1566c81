import Verif.Common.AssocMap
/-
Model of the mutual-peer lists kept by the server's account store.
Sources: /repo/citadel_user/src/client_account.rs lines 371-375 (`get_hyperlan_peer`), 397-428
(`register_hyperlan_p2p_as_server`), 433-444 (`deregister_hyperlan_p2p_as_server`), 494-508 (`remove_hyperlan_peer`);
/repo/citadel_user/src/backend/memory.rs lines 76-80 (`save_cnac`), 94-110 (`delete_cnac_by_cid`), 151-160
(`register_p2p_as_server`), 177-187 (`deregister_p2p_as_server`), 260-268 (`hyperlan_peer_exists`).

Only the `HYPERLAN_IDX` list of each account matters; a `MutualPeer` is its cid. Accounts are created under a cid that
is not in use (account_manager.rs lines 248-262 check the username, from which the cid is computed).
Locks: registration holds both accounts' locks, so it is atomic (and deadlocks when both are the same account);
deregistration takes the two locks one after the other, so it is two steps (`deregStart`, `deregFinish`); deletion takes
the write lock of the whole store, which the other operations hold for reading, so it never overlaps them.
-/
namespace Verif.Mutuals
open Verif

/-- The store: cid ↦ list of peer cids (`mutuals[HYPERLAN_IDX]`). `pending`: deregistrations of which the first half is
done, as (account still to be changed, cid to remove from it). `deadlocked`: a thread waits for itself while holding the
store lock. -/
structure Store where
  accts : AMap Nat (List Nat)
  pending : List (Nat × Nat)
  deadlocked : Bool
deriving DecidableEq, Repr

def empty : Store := { accts := [], pending := [], deadlocked := false }

/-- What `get_hyperlan_peer_list` would show for the account (nothing if there is no such account). -/
def peers (s : Store) (a : Nat) : List Nat := (s.accts.get? a).getD []

/-- Result of an operation. -/
inductive Outcome where
  | ok | notFound | blocked
deriving DecidableEq, Repr

/-- `save_cnac` of a new account. -/
def create (s : Store) (c : Nat) : Store × Outcome :=
  if s.accts.contains c then (s, .notFound) else ({ s with accts := s.accts.insert c [] }, .ok)

/-- `register_p2p_as_server`. -/
def register (s : Store) (a b : Nat) : Store × Outcome :=
  if s.accts.contains a && s.accts.contains b then
    if a = b then ({ s with deadlocked := true }, .blocked)
    else
      let m := s.accts.insert a (peers s a ++ [b])
      ({ s with accts := m.insert b (peers s b ++ [a]) }, .ok)
  else (s, .notFound)

/-- `remove_hyperlan_peer`: drops the first entry for `b` from the list of `a`. -/
def removePeer (s : Store) (a b : Nat) : Store × Bool :=
  if b ∈ peers s a then ({ s with accts := s.accts.insert a ((peers s a).erase b) }, true) else (s, false)

/-- First half of `deregister_p2p_as_server`: look-ups and removal from the first account. -/
def deregStart (s : Store) (a b : Nat) : Store × Outcome :=
  if s.accts.contains a && s.accts.contains b then
    let r := removePeer s a b
    if r.2 then ({ r.1 with pending := (b, a) :: r.1.pending }, .ok) else (s, .notFound)
  else (s, .notFound)

/-- Second half: removal from the other account. -/
def deregFinish (s : Store) (b a : Nat) : Store × Outcome :=
  if (b, a) ∈ s.pending then
    let r := removePeer { s with pending := s.pending.erase (b, a) } b a
    (r.1, if r.2 then .ok else .notFound)
  else (s, .blocked)

/-- Undisturbed `deregister_p2p_as_server`. -/
def deregister (s : Store) (a b : Nat) : Store × Outcome :=
  let r := deregStart s a b
  if r.2 = .ok then deregFinish r.1 b a else r

/-- `delete_cnac_by_cid`; waits for the deregistrations in progress. -/
def delete (s : Store) (c : Nat) : Store × Outcome :=
  if s.pending ≠ [] then (s, .blocked)
  else if s.accts.contains c then
    (((peers s c).foldl (fun s p => if s.accts.contains p then (removePeer s p c).1 else s)
        { s with accts := s.accts.erase c }), .ok)
  else (s, .notFound)

inductive Op where
  | create (c : Nat)
  | register (a b : Nat)
  | deregister (a b : Nat)
  | deregStart (a b : Nat)
  | deregFinish (b a : Nat)
  | delete (c : Nat)
deriving DecidableEq, Repr

/-- One step; nothing more happens once the store lock is stuck. -/
def step (s : Store) (op : Op) : Store × Outcome :=
  if s.deadlocked then (s, .blocked)
  else match op with
    | .create c => create s c
    | .register a b => register s a b
    | .deregister a b => deregister s a b
    | .deregStart a b => deregStart s a b
    | .deregFinish b a => deregFinish s b a
    | .delete c => delete s c

/-- A whole history. -/
def run (s : Store) : List Op → Store × List (Op × Outcome)
  | [] => (s, [])
  | op :: ops =>
    let r := step s op
    let r' := run r.1 ops
    (r'.1, (op, r.2) :: r'.2)

/-- The state after a history. -/
def after (ops : List Op) : Store := (run empty ops).1

end Verif.Mutuals

import Verif.Backends.Model
/-
What the interface promises (mod.rs lines 225-392), as a store that is nothing but three functions; the conditions under
which a history is compared with it.
-/
namespace Verif.Backends
open Verif

/-- The store as its users think of it: which accounts there are and their names; who is registered with whom, and under
which name; the values of the byte map. -/
structure Ref where
  name : Cid → Option Str
  peer : Cid → Cid → Option Str
  byte : Slot → Option Str

namespace Ref

def empty : Ref := ⟨fun _ => none, fun _ _ => none, fun _ => none⟩

def step (w : Ref) : Op → Ref
  -- "Saves the entire cnac to the DB"
  | .save a => { w with name := fun c => if c = a.cid then some a.username else w.name c }
  -- "Removes a CNAC by cid"
  | .delete c =>
    if (w.name c).isSome then
      { name := fun d => if d = c then none else w.name d
        peer := fun s p => if s = c ∨ p = c then none else w.peer s p
        byte := fun x => if x.session = c then none else w.byte x }
    else w
  -- "Removes all CNACs"
  | .purge => empty
  -- "Registers two peers together"
  | .regServer a b =>
    match w.name a, w.name b with
    | some na, some nb =>
      { w with peer := fun s p =>
          if s = a ∧ p = b then some nb else if s = b ∧ p = a then some na else w.peer s p }
    | _, _ => w
  | .regClient s p n =>
    if (w.name s).isSome then { w with peer := fun s' p' => if s' = s ∧ p' = p then some n else w.peer s' p' } else w
  -- "Deregisters two peers from each other"
  | .deregServer a b =>
    { w with peer := fun s p => if (s = a ∧ p = b) ∨ (s = b ∧ p = a) then none else w.peer s p }
  | .deregClient s p => { w with peer := fun s' p' => if s' = s ∧ p' = p then none else w.peer s' p' }
  -- "Synchronizes the list locally"
  | .sync s ps =>
    if (w.name s).isSome then
      { w with peer := fun s' p' =>
          if s' = s then (ps.find? fun e => e.cid = p').bind Peer.username else w.peer s' p' }
    else w
  -- "Stores a value in the byte map, either creating or overwriting any pre-existing value"
  | .store x v =>
    if (w.name x.session).isSome then { w with byte := fun y => if y = x then some v else w.byte y } else w
  -- "Removes a value from the byte map"
  | .remove x => { w with byte := fun y => if y = x then none else w.byte y }
  | .removeAll s p key =>
    { w with byte := fun y => if y.session = s ∧ y.peer = p ∧ y.key = key then none else w.byte y }

def run (w : Ref) (ops : List Op) : Ref := ops.foldl step w

end Ref

/-- `P` holds of every operation of the history and of the store it meets. -/
def Along (P : Ref → Op → Prop) : Ref → List Op → Prop
  | _, [] => True
  | w, o :: ops => P w o ∧ Along P (w.step o) ops

/-- Accounts are created under a cid that is not in use (account_manager.rs lines 248-262). -/
def FreshAccounts (w : Ref) : Op → Prop
  | .save a => w.name a.cid = none
  | _ => True

/-- A value is stored only where there is none. -/
def NoOverwrite (w : Ref) : Op → Prop
  | .store x _ => w.byte x = none
  | _ => True

/-- Values are stored for accounts that exist, and an account is deleted only when it has no values any more. -/
def EmptyDelete (w : Ref) : Op → Prop
  | .store x _ => (w.name x.session).isSome
  | .delete c => ∀ x : Slot, x.session = c → w.byte x = none
  | _ => True

/-- No one is registered twice, no one with themselves; lists that replace the list of an account are not empty, name no
one twice and have names. -/
def NoDuplicates (w : Ref) : Op → Prop
  | .regServer a b => a ≠ b ∧ w.peer a b = none ∧ w.peer b a = none
  | .regClient s p _ => w.peer s p = none
  | .sync _ ps => ps ≠ [] ∧ (ps.map Peer.cid).Nodup ∧ ∀ e ∈ ps, e.username.isSome
  | _ => True

/-- The operations of a server: peers are registered and deregistered on both sides, only existing accounts with each
other, and the name of an account gives its cid (`username_to_cid`). -/
def ServerOps (cidOf : Str → Cid) (w : Ref) : Op → Prop
  | .save a => w.name a.cid = none ∧ cidOf a.username = a.cid
  | .regServer a b => a ≠ b ∧ (w.name a).isSome ∧ (w.name b).isSome
  | .regClient _ _ _ => False
  | .deregClient _ _ => False
  | .sync _ _ => False
  | _ => True

/-- Only accounts without peers are deleted. -/
def LonelyDelete (w : Ref) : Op → Prop
  | .delete c => ∀ p, w.peer c p = none
  | _ => True

/-- No two accounts are registered with each other twice. -/
def NewPeers (w : Ref) : Op → Prop
  | .regServer a b => w.peer a b = none
  | _ => True

end Verif.Backends

import Verif.Common.AssocMap
/-
Model of conversation ids on a multiplexed connection.
Sources: /repo/netbeam/src/multiplex.rs lines 83-105 (id generator), 167-203 (`new`), 341-390
(`get_next_prereserved`, `subscribe`, `get_next_id`); /repo/netbeam/src/sync/network_application.rs lines 298-346
(`preaction_sync`); /repo/netbeam/src/sync/subscription.rs lines 133-163 (close).

Two endpoints: A is the `Receiver` node (it allocates ids), B is the `Initiator` node (it follows). `PreCreate` packets
travel on reliable FIFO channels. Opening is serialised per endpoint by the `recv_lock` mutex. 64-bit ids are unbounded
naturals (no wrap-around after 2^64 conversations). The number of pre-reserved ids (`INITIAL_CAPACITY`, 32) is a
parameter. Payload traffic and the post-close handshake are left out: closing simply removes the subscriber entry.
A failed `assert!` is recorded in `panicked`.
-/
namespace Verif.Multiplex
open Verif

/-- What the ids depend on in `MultiplexedConnInner` (multiplex.rs lines 114-129): `subs` maps an id to whether its
pre-reserved receiver is still unused. `opened` is the ghost list of ids of all subscriptions handed out, newest
first. -/
structure Node where
  subs : AMap Nat Bool
  idGen : Nat
  cur : Nat
  opened : List Nat
  panicked : Bool
deriving DecidableEq, Repr

/-- `IDGen::generate_next`, lines 90-92: new counter and id. -/
def generateNext (c : Nat) : Nat × Nat := (c + 1, 1 + c)

/-- `IDGen::get_proposed_next`, lines 94-96. -/
def getProposedNext (c : Nat) : Nat := 1 + c

/-- `IDGen::catch_up_to`, lines 98-104 (`fetch_max`): new counter, and whether there was no gap. -/
def catchUpTo (c id : Nat) : Nat × Bool := (max c id, c + 1 == id)

/-- The ids drawn by `new`. -/
def prereserve : Nat → AMap Nat Bool
  | 0 => []
  | n + 1 => prereserve n ++ [(n + 1, true)]

/-- `MultiplexedConn::new`, lines 167-203: ids 1..=cap are pre-reserved. -/
def newNode (cap : Nat) : Node :=
  { subs := prereserve cap, idGen := cap, cur := 0, opened := [], panicked := false }

/-- `get_next_prereserved`, lines 341-352 (`none` = falls through). -/
def getNextPrereserved (n : Node) : Option (Node × Nat) :=
  let next := getProposedNext n.cur
  if n.subs.get? next = some true then
    let g := generateNext n.cur
    some ({ n with subs := n.subs.insert next false, cur := g.1, opened := next :: n.opened,
                   panicked := n.panicked || g.2 != next }, next)
  else none

/-- `subscribe`, lines 354-383. -/
def subscribe (n : Node) (id : Nat) : Node :=
  { n with subs := n.subs.insert id false, cur := (catchUpTo n.cur id).1, opened := id :: n.opened,
           panicked := n.panicked || n.subs.contains id }

/-- Dropping a subscription removes its entry (subscription.rs lines 142-145); only a subscription that was handed out
can be dropped. -/
def close (n : Node) (id : Nat) : Node :=
  if id ∈ n.opened then { n with subs := n.subs.erase id } else n

/-- Both endpoints; `toB`, `toA`: `PreCreate` packets in flight or queued at the receiver; `waiting`: the id for which
A's current open waits for an answer. `log`: completed handshakes at A as (own id, answered id), newest first. -/
structure State where
  a : Node
  b : Node
  toB : List Nat
  toA : List Nat
  waiting : Option Nat
  log : List (Nat × Nat)
deriving DecidableEq, Repr

def init (cap : Nat) : State :=
  { a := newNode cap, b := newNode cap, toB := [], toA := [], waiting := none, log := [] }

inductive Op where
  /-- A calls `initiate_subscription` (network_application.rs lines 306-319). -/
  | aOpen
  /-- A's open receives the answer (lines 320-330). -/
  | aAnswer
  /-- A's open is cancelled while waiting. -/
  | aCancel
  /-- B calls `initiate_subscription` and it runs to completion (lines 332-343; blocks if nothing was received). -/
  | bOpen
  /-- As `bOpen`, but cancelled after subscribing and before answering. -/
  | bOpenCancelled
  | aClose (id : Nat)
  | bClose (id : Nat)
deriving DecidableEq, Repr

/-- One step. -/
def step (s : State) : Op → State
  | .aOpen =>
    if s.waiting.isSome then s  -- the mutex is held by the open in progress
    else match getNextPrereserved s.a with
      | some (a', _) => { s with a := a' }
      | none =>
        let g := generateNext s.a.idGen
        { s with a := subscribe { s.a with idGen := g.1 } g.2, toB := s.toB ++ [g.2], waiting := some g.2 }
  | .aAnswer =>
    match s.waiting, s.toA with
    | some id, x :: rest => { s with waiting := none, toA := rest, log := (id, x) :: s.log }
    | _, _ => s
  | .aCancel => { s with waiting := none }
  | .bOpen =>
    match getNextPrereserved s.b with
    | some (b', _) => { s with b := b' }
    | none =>
      match s.toB with
      | [] => s
      | id :: rest => { s with b := subscribe s.b id, toB := rest, toA := s.toA ++ [id] }
  | .bOpenCancelled =>
    match getNextPrereserved s.b with
    | some (b', _) => { s with b := b' }
    | none =>
      match s.toB with
      | [] => s
      | id :: rest => { s with b := subscribe s.b id, toB := rest }
  | .aClose id => { s with a := close s.a id }
  | .bClose id => { s with b := close s.b id }

/-- A whole history. -/
def run (s : State) (ops : List Op) : State := ops.foldl step s

/-- What a following endpoint does when its peer is arbitrary. -/
inductive BOp where
  /-- The endpoint opens a conversation; `id` is what the peer proposes (unused while pre-reserved ids remain). -/
  | openWith (id : Nat)
  | close (id : Nat)
deriving DecidableEq, Repr

/-- One step of endpoint B against an arbitrary peer (network_application.rs lines 332-343). -/
def bstep (n : Node) : BOp → Node
  | .openWith id =>
    match getNextPrereserved n with
    | some (n', _) => n'
    | none => subscribe n id
  | .close id => close n id

/-- Endpoint B against an arbitrary peer. -/
def brun (n : Node) (ops : List BOp) : Node := ops.foldl bstep n

/-- The peer's proposals in order. -/
def proposals (ops : List BOp) : List Nat :=
  ops.filterMap (fun | .openWith id => some id | .close _ => none)

end Verif.Multiplex

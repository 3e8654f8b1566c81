import Verif.PeerDrop.Model
/-
Notions used to state the properties of the direct streams of peers.
-/
namespace Verif.PeerDrop

/-- A client that has no connection with the peer yet. -/
def fresh (me peer : Nat) (wasm : Bool) : Node := { me := me, peer := peer, wasm := wasm }

/-- The signals for the server in a run. -/
def outs (s : Node) : List Act → List Nat
  | [] => []
  | a :: as => (step s a).2.toList ++ outs (step s a).1 as

/-- The connection with that id is in place. -/
def Has (s : Node) (id : Nat) : Prop := ∃ v, s.vconn = some v ∧ v.id = id

instance (s : Node) (id : Nat) : Decidable (Has s id) :=
  match h : s.vconn with
  | none => .isFalse (by rintro ⟨v, hv, _⟩; rw [h] at hv; cases hv)
  | some v =>
    if e : v.id = id then .isTrue ⟨v, h, e⟩
    else .isFalse (by rintro ⟨v', hv, he⟩; rw [h] at hv; cases hv; exact e he)

/-- The ids of the connections that a run tries to make. -/
def attempts : List Act → List Nat
  | [] => []
  | .create id :: as => id :: attempts as
  | _ :: as => attempts as

/-- Tidings that go through the `DisconnectSignalTracker`. -/
def gated : Ev → Bool
  | .notified _ => true
  | .failed _ => true
  | _ => false

/-- A physical stream between `a` and `b`: a label, and whether `a` is its client. -/
structure Phys where
  label : Nat
  aIsClient : Bool
deriving DecidableEq, Repr

/-- The streams come up at `a`, at `b`. -/
def openAtA (ps : List Phys) : List Act := ps.map fun p => .openStream (!p.aIsClient)
def openAtB (ps : List Phys) : List Act := ps.map fun p => .openStream p.aIsClient

/-- The stream that a client uses, given the order in which the streams came up there from number `n` on. -/
def inUse (s : Node) (n : Nat) (ps : List Phys) : Option Phys :=
  match s.vconn with
  | some v =>
    match v.remote with
    | some r => if n ≤ r.1 then ps[r.1 - n]? else none
    | none => none
  | none => none

/-- A move that handles a signal. -/
def handles (w : Net) : Move → Nat
  | .serve true i => if i < w.ua.length then 1 else 0
  | .serve false i => if i < w.ub.length then 1 else 0
  | .deliver true i => if i < w.da.length then 1 else 0
  | .deliver false i => if i < w.db.length then 1 else 0
  | _ => 0

/-- The number of signals handled in a run. -/
def handled (w : Net) : List Move → Nat
  | [] => 0
  | m :: ms => handles w m + handled (move w m) ms

/-- A move that may be the cause of signals: a stream comes up, a channel is dropped, a connection is made. -/
def causes : Move → Nat
  | .act _ (.openStream _) => 1
  | .act _ (.dropChannel _) => 1
  | .act _ (.create _) => 1
  | _ => 0

def caused (ms : List Move) : Nat := (ms.map causes).sum

/-- Two clients that have nothing yet. -/
def net (p q : Nat) (wasm : Bool) : Net := { a := fresh p q wasm, b := fresh q p wasm }

end Verif.PeerDrop

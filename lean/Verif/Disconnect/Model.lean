/-
Model of the disconnect signal tracker.
Source: /repo/citadel_proto/src/proto/disconnect_tracker.rs lines 43-120.

Tickets (128-bit) and cids (64-bit) are natural numbers. A `HashSet` is a duplicate-free list. Each method takes a
mutex for its whole effect on one set, so racing callers are an arbitrary sequence of calls; `clear_session` takes the
two mutexes one after the other and is modelled as two separate steps.
-/
namespace Verif.Disconnect

/-- `DisconnectSignalTrackerInner`, lines 47-53. -/
structure Tracker where
  c2s : List Nat
  p2p : List (Nat × Nat)
deriving DecidableEq, Repr

/-- `DisconnectSignalTracker::new`, line 57. -/
def new : Tracker := { c2s := [], p2p := [] }

/-- `HashSet::insert`. -/
def setInsert {α : Type} [DecidableEq α] (s : List α) (a : α) : List α × Bool :=
  if a ∈ s then (s, false) else (a :: s, true)

/-- `try_c2s_disconnect`, lines 69-71. -/
def tryC2s (t : Tracker) (ticket : Nat) : Tracker × Bool :=
  let r := setInsert t.c2s ticket
  ({ t with c2s := r.1 }, r.2)

/-- `try_p2p_disconnect`, lines 82-87. -/
def tryP2p (t : Tracker) (ticket peer : Nat) : Tracker × Bool :=
  let r := setInsert t.p2p (ticket, peer)
  ({ t with p2p := r.1 }, r.2)

/-- `clear_p2p_peer`, lines 97-102. -/
def clearP2pPeer (t : Tracker) (ticket peer : Nat) : Tracker :=
  { t with p2p := t.p2p.filter (fun x => x ≠ (ticket, peer)) }

/-- `clear_session`, first statement, line 113. -/
def clearSessionC2s (t : Tracker) (ticket : Nat) : Tracker :=
  { t with c2s := t.c2s.filter (fun x => x ≠ ticket) }

/-- `clear_session`, second statement, lines 114-117. -/
def clearSessionP2p (t : Tracker) (ticket : Nat) : Tracker :=
  { t with p2p := t.p2p.filter (fun x => x.1 ≠ ticket) }

inductive Op where
  | tryC2s (ticket : Nat)
  | tryP2p (ticket peer : Nat)
  | clearP2pPeer (ticket peer : Nat)
  | clearSessionC2s (ticket : Nat)
  | clearSessionP2p (ticket : Nat)
deriving DecidableEq, Repr

/-- One call and its answer (`none` for calls that return nothing). -/
def step (t : Tracker) : Op → Tracker × Option Bool
  | .tryC2s k => let r := tryC2s t k; (r.1, some r.2)
  | .tryP2p k p => let r := tryP2p t k p; (r.1, some r.2)
  | .clearP2pPeer k p => (clearP2pPeer t k p, none)
  | .clearSessionC2s k => (clearSessionC2s t k, none)
  | .clearSessionP2p k => (clearSessionP2p t k, none)

/-- Any interleaving of calls, with answers. -/
def run (t : Tracker) : List Op → Tracker × List (Op × Option Bool)
  | [] => (t, [])
  | op :: ops =>
    let r := step t op
    let r' := run r.1 ops
    (r'.1, (op, r.2) :: r'.2)

end Verif.Disconnect

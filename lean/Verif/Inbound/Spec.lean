import Verif.Inbound.Model

/-! What becomes of the packets that arrive (C240-C243). -/

namespace Verif.Inbound

/-- The packets that arrived. -/
def arrived : List Event → List Pkt
  | [] => []
  | .arrive p :: es => p :: arrived es
  | _ :: es => arrived es

/-- How many of these packets start a hole punch. -/
def punches (ps : List Pkt) : Nat := ps.countP fun p => isWait p.work

/-- As many hole punches as packets can be worked on wait for packets that were not passed on. -/
def Jammed (s : State) : Prop :=
  s.limit ≤ s.busy.length ∧ ∀ p ∈ s.busy, ∃ k, p.work = .waits k ∧ k ∉ s.tokens

/-- The session works on by itself: nothing arrives and nothing is given up. -/
def Own : Event → Prop
  | .take => True
  | .finish _ => True
  | _ => False

end Verif.Inbound

import Verif.Listen.Model

/-! What listeners and clients are to do (C235-C239). -/

namespace Verif.Listen

/-- The events that are not attempts by others: `accept` works, and so does `set_nodelay`. -/
def Calm : Event → Prop
  | .acceptFails => False
  | .accept set => set = true
  | _ => True

/-- Which attempts the node got. -/
def got (s : State) : List Nat := s.out.filterMap id

/-- Which attempts arrived. -/
def arrived : List Event → List Nat
  | [] => []
  | .arrive i :: es => i :: arrived es
  | _ :: es => arrived es

/-- The kinds of listeners whose attempts do not depend on each other. -/
def Independent (k : Kind) : Prop := k = .tcp ∨ k = .tls ∨ k = .ws

/-- With this policy, the client ends up connected to somebody who speaks first as in `f` and who
holds certificates for `names`. -/
def Connected (require : Bool) (f : First) (names : String → Bool) : Prop :=
  connects names (choose require f) = true

end Verif.Listen

import Verif.Toolset.Model

/-! Vocabulary for C05-C07: what the call history says the toolset must hold. -/
namespace Verif.Toolset
variable {β : Type}

/-- The ratchets that should be held, newest first: every commit adds one at the front, every successful
deregistration removes the oldest. Refused calls do nothing. -/
def retained (start : List (Ratchet β)) : List (Event β) → List (Ratchet β)
  | [] => start
  | .committed r _ :: es => retained (r :: start) es
  | .dropped _ :: es => retained start.dropLast es
  | .updateRefused _ :: es => retained start es
  | .dropRefused _ :: es => retained start es

/-- The owner reacts to every "needs synchronization" status by deregistering the version it names, next. -/
def Compliant : List (Op β) → List (Event β) → Prop
  | _ :: ops, e :: es =>
    (∀ r nv o, e = .committed r (.committedNeedsSynchronization nv o) →
      ∀ op' ∈ ops.head?, op' = .deregister o) ∧ Compliant ops es
  | _, _ => True

end Verif.Toolset

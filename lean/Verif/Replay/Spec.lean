import Verif.Replay.Model

/-! Vocabulary of the anti-replay properties, in terms of observed events only. -/
namespace Verif.Replay

/-- `p` was accepted in the event trace after the last reset in it. -/
def AcceptedSinceReset (trace : List Event) (p : Nat) : Prop :=
  ∃ a b, trace = a ++ Event.accepted p :: b ∧ Event.reset ∉ b

/-- Every id handed to the container is a `u64`. -/
def Op.InU64 : Op → Prop
  | .recv p => p ≤ u64Max
  | _ => True

end Verif.Replay

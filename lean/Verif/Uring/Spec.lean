import Verif.Uring.Model

/-! What the thread that receives datagrams is to do (C256-C259). -/

namespace Verif.Uring

/-- The loop has not been left. -/
def State.looping (s : State) : Prop := s.phase = .check ∨ s.phase = .reap ∨ s.phase = .handle

/-- Where the slots are. -/
def State.places (s : State) : List Nat :=
  s.sq ++ s.armed ++ s.cq.map Prod.fst ++ s.batch.map Prod.fst

end Verif.Uring

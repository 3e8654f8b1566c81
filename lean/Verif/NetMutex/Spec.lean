import Verif.NetMutex.Model

namespace Verif.NetMutex

/-- The value most recently written by a user who holds a guard, starting from `v`; `s` is the state before `ops`. -/
def lastLeft (s : Sys) (v : Nat) : List Op → Nat
  | [] => v
  | op :: ops =>
    lastLeft (step s op)
      (match op with
       | .a (.write w) => if s.a.st = .guard then w else v
       | .b (.write w) => if s.b.st = .guard then w else v
       | _ => v) ops

/-- No guard is held and no packet is on the way. -/
def Quiescent (s : Sys) : Prop := s.a.st ≠ .guard ∧ s.b.st ≠ .guard ∧ s.toA = [] ∧ s.toB = []

end Verif.NetMutex

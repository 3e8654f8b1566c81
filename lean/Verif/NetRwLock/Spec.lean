import Verif.NetRwLock.Model

namespace Verif.NetRwLock

/-- The user of the endpoint has a write guard. -/
def Node.writer (x : Node) : Bool :=
  match x.st with
  | .writing => true
  | .misWrite _ => true
  | _ => false

/-- How many read guards the user of the endpoint has. -/
def Node.readers (x : Node) : Nat :=
  match x.st with
  | .reading n => n + 1
  | .misRead => 1
  | .lent _ n => n
  | .misWrite n => n
  | .dropping _ _ (some n) => n
  | .dropYield _ (some n) => n
  | _ => 0

/-- The user of the endpoint has a guard. -/
def Node.holds (x : Node) : Prop := x.writer = true ∨ 0 < x.readers

/-- The kind of lock somebody at the endpoint has asked the other endpoint for, and waits for. -/
def Node.wants (x : Node) : Option Kind :=
  match x.st with
  | .active want _ _ => some want
  | .losing want _ _ => some want
  | _ => none

/-- The value most recently written by a user who has a write guard, starting from `v`; `s` is the state before `ops`. -/
def lastLeft (s : Sys) (v : Nat) : List Op → Nat
  | [] => v
  | op :: ops =>
    lastLeft (step s op)
      (match op with
       | .a (.write w) => if s.a.st = .writing then w else v
       | .b (.write w) => if s.b.st = .writing then w else v
       | _ => v) ops

/-- A property of all states of a run. -/
def Always (P : Sys → Prop) (v : Nat) (ops : List Op) : Prop := ∀ pre post, ops = pre ++ post → P (after v pre)

/-- The endpoints do not wait for locks of different kinds at the same time. -/
def SameKind (s : Sys) : Prop := ∀ k k', s.a.wants = some k → s.b.wants = some k' → k = k'

/-- If both endpoints wait for a lock, both want to read. -/
def OnlyReads (s : Sys) : Prop := ∀ k k', s.a.wants = some k → s.b.wants = some k' → k = .read ∧ k' = .read

/-- No local reader uses a lock that is lent to the other endpoint. -/
def NoShared (s : Sys) : Prop :=
  (∀ k n, s.a.st = .lent k n → n = 0) ∧ (∀ k n, s.b.st = .lent k n → n = 0)

/-- No guard is held and no packet is on the way. -/
def Quiescent (s : Sys) : Prop := ¬ s.a.holds ∧ ¬ s.b.holds ∧ s.toA = [] ∧ s.toB = []

end Verif.NetRwLock

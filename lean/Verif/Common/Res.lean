/-! Outcome of a Rust call: value, error, or panic. -/
namespace Verif

inductive Res (α : Type) where
  | ok (a : α)
  | err
  | panic
deriving DecidableEq, Repr

def Res.bind {α β : Type} : Res α → (α → Res β) → Res β
  | .ok a, f => f a
  | .err, _ => .err
  | .panic, _ => .panic

/-- `?` on a `Result`. -/
def Res.ofOption {α : Type} : Option α → Res α
  | some a => .ok a
  | none => .err

/-- `unwrap` on an `Option`. -/
def Res.unwrap {α : Type} : Option α → Res α
  | some a => .ok a
  | none => .panic

end Verif

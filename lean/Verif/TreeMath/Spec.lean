import Verif.TreeMath.Model
/-
What a tree over `n` leaves is supposed to look like, in terms of its two child maps only.
-/
namespace Verif.TreeMath

/-- `y` is `x` or lies below it. -/
inductive Below (n : Nat) : Nat → Nat → Prop
  | refl (x : Nat) : Below n x x
  | left {x y : Nat} : level x ≠ 0 → Below n (left x) y → Below n x y
  | right {x y : Nat} : level x ≠ 0 → Below n (right x n) y → Below n x y

/-- Each element is the parent of the one before it, starting from `x`. -/
def Ascends (n : Nat) : Nat → List Nat → Prop
  | _, [] => True
  | x, p :: rest => level p ≠ 0 ∧ (x = left p ∨ x = right p n) ∧ Ascends n p rest

/-- The other child of the parent, position by position. -/
def Others (n : Nat) : Nat → List Nat → List Nat → Prop
  | _, [], [] => True
  | x, p :: ps, c :: cs => (x = left p ∧ c = right p n ∨ x = right p n ∧ c = left p) ∧ Others n p ps cs
  | _, _, _ => False

end Verif.TreeMath

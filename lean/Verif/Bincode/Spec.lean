import Verif.Bincode.Model
/-!
What the bounds are about: how deep sequences are nested, and which elements take bytes.
-/
namespace Verif.Bincode

/-- Sequences are nested at most so deep. -/
def Depth : Ty → Nat → Prop
  | .option t, d => Depth t d
  | .pair a b, d => Depth a d ∧ Depth b d
  | .enum n f, d => ∀ i < n, Depth (f i) d
  | .seq t, d => 0 < d ∧ Depth t (d - 1)
  | _, _ => True

/-- Every value takes at least one byte. -/
def Pos : Ty → Prop
  | .unit => False
  | .int n => 0 < n
  | .pair a b => Pos a ∨ Pos b
  | _ => True

/-- The elements of sequences take at least one byte each. -/
def Solid : Ty → Prop
  | .option t => Solid t
  | .pair a b => Solid a ∧ Solid b
  | .enum n f => ∀ i < n, Solid (f i)
  | .seq t => Pos t ∧ Solid t
  | _ => True

/-- The memory that reading asks for, whether it works or not. -/
def memory (io : Bool) (size : Ty → Nat) (lim : Option Nat) (t : Ty) (input : Bytes) : Nat :=
  (decode ⟨io, size⟩ t { rest := input, lim := lim }).2.alloc

/-- The elements that reading begins. -/
def work (io : Bool) (size : Ty → Nat) (lim : Option Nat) (t : Ty) (input : Bytes) : Nat :=
  (decode ⟨io, size⟩ t { rest := input, lim := lim }).2.steps

end Verif.Bincode

import Verif.Argon.Model

/-! What tuned settings are to be (C248-C251). -/

namespace Verif.Argon

/-- A hash took less than a time. -/
def Below (r : Option Nat) (limit : Nat) : Prop := ∃ e, r = some e ∧ e < limit

/-- A hash took at least a time. -/
def AtLeast (r : Option Nat) (limit : Nat) : Prop := ∃ e, r = some e ∧ limit ≤ e

/-- A machine that hashes with `least` or more memory without failing, four times as much within the
minimum, in a time at most proportional to the memory, and slow enough with many passes. -/
structure Fit (c : Clock) (minimum least passes : Nat) : Prop where
  works : ∀ n m k, least ≤ m → c n m k ≠ none
  linear : ∀ n m e, least ≤ m → c n m 1 = some e → e * (4 * least) ≤ minimum * m
  slow : ∀ n m k e, least ≤ m → passes ≤ k → c n m k = some e → minimum ≤ e

end Verif.Argon

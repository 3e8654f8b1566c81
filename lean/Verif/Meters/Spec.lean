import Verif.Meters.Model

/-! What the meters are to say (C260-C263). -/

namespace Verif.Meters

/-- Sixty seconds. -/
def minute : Nat := 60 * 1000000000

/-- More than a minute passed since the state was made and since each confirmation. -/
def Expiry.silent (s : Expiry) : Prop := minute < s.now ∧ ∀ t ∈ s.stored, t + minute < s.now

/-- The samples one after the other. -/
def addAll (s : Stats) : List (Int × Int) → Stats
  | [] => s
  | (t, b) :: l => addAll (s.add (Stats.new t b)) l

end Verif.Meters

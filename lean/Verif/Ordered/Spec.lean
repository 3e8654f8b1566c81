/-! Vocabulary for C08 and C09, about the list of arrivals only. -/
namespace Verif.Ordered
variable {T : Type}

/-- The numbers that have arrived. -/
def ids (arrivals : List (Nat × T)) : List Nat := arrivals.map Prod.fst

/-- The payload of the latest arrival that carried number `i`. -/
def latestPayload (arrivals : List (Nat × T)) (i : Nat) : Option T :=
  ((arrivals.filter (fun a => a.1 == i)).getLast?).map Prod.snd

/-- `k` is the first number that has not arrived. -/
def FirstMissing (arrivals : List (Nat × T)) (k : Nat) : Prop :=
  k ∉ ids arrivals ∧ ∀ i < k, i ∈ ids arrivals

end Verif.Ordered

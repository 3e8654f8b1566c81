import Verif.Ordered.Lemmas

/-! Properties C08 and C09 of the ordered channel. -/
namespace Verif.Ordered
open Verif
variable {T : Type}

/-- **C08 (shape).** Whatever arrives, the receiver has seen exactly `k` packets for some `k` all of whose smaller
numbers have arrived, the `j`-th of them being one that arrived under number `j`: the output is packet 0, then 1,
then 2, ..., each once, without gaps. -/
theorem C08_output_is_numbered_prefix (arrivals : List (Nat × T)) (hlen : arrivals.length < 2 ^ 64) :
    (∀ i < (run new arrivals).out.length, i ∈ ids arrivals) ∧
    ∀ j (h : j < (run new arrivals).out.length), (j, (run new arrivals).out[j]) ∈ arrivals := by
  obtain ⟨k, hk, -⟩ := inv_run arrivals hlen
  exact ⟨by rw [hk.outLen]; exact hk.arrived, hk.outMem⟩

/-- **C08 (append-only, payload choice).** One more arrival never changes what was already delivered, and each
newly delivered packet has the latest payload that arrived under its number. -/
theorem C08_output_grows (arrivals : List (Nat × T)) (a : Nat × T) (hlen : arrivals.length + 1 < 2 ^ 64) :
    let before := (run new arrivals).out
    let after := (run new (arrivals ++ [a])).out
    before.length ≤ after.length ∧
    (∀ j < before.length, after[j]? = before[j]?) ∧
    (∀ j, before.length ≤ j → j < after.length → after[j]? = latestPayload (arrivals ++ [a]) j) := by
  intro before after
  obtain ⟨k, hk⟩ := inv_run arrivals (by omega)
  obtain ⟨k', h1, h2, h3, h4⟩ := inv_step arrivals k _ hk a.1 a.2 hlen
  have ha : after = (onPacketReceived (run new arrivals) a.1 a.2).out := by
    show (run new (arrivals ++ [a])).out = _
    rw [run_append]; rfl
  have hb : before.length = k := hk.1.outLen
  have hal : after.length = k' := by rw [ha]; exact h2.1.outLen
  rw [hb, hal, ha]
  exact ⟨h1, h3, h4⟩

/-- **C08 (honest sender).** If every copy of number `i` carries the payload `f i`, the receiver sees exactly
`f 0, f 1, ..., f (k-1)` where `k` is the first number that has not arrived. -/
theorem C08_honest_output (f : Nat → T) (nums : List Nat) (hlen : nums.length < 2 ^ 64) (k : Nat)
    (hk : FirstMissing (nums.map (fun i => (i, f i))) k) :
    (run new (nums.map (fun i => (i, f i)))).out = (List.range k).map f := by
  obtain ⟨k₁, hi, hn⟩ := inv_run (nums.map (fun i => (i, f i))) (by simpa using hlen)
  have hkk : k₁ = k := by
    rw [latest_none_iff] at hn
    rcases Nat.lt_trichotomy k₁ k with h | h | h
    · exact absurd (hk.2 k₁ h) hn
    · exact h
    · exact absurd (hi.arrived k h) hk.1
  subst hkk
  apply List.ext_getElem
  · rw [hi.outLen]; simp
  · intro j h1 h2
    have := hi.outMem j h1
    simp only [List.mem_map, Prod.mk.injEq] at this
    obtain ⟨i, -, rfl, hf⟩ := this
    simp [← hf]

/-- **C09.** The number delivered is exactly the first number that has not arrived, and what is still buffered is
exactly the arrived numbers above it: nothing deliverable is held back. -/
theorem C09_everything_deliverable_is_delivered (arrivals : List (Nat × T)) (hlen : arrivals.length < 2 ^ 64) :
    FirstMissing arrivals (run new arrivals).out.length ∧
    ∀ i, i ∈ AMap.keys (run new arrivals).map ↔ i ∈ ids arrivals ∧ (run new arrivals).out.length < i := by
  obtain ⟨k, hk, hn⟩ := inv_run arrivals hlen
  rw [hk.outLen]
  rw [latest_none_iff] at hn
  refine ⟨⟨hn, hk.arrived⟩, ?_⟩
  intro i
  rw [AMap.mem_keys_iff]
  by_cases hi : i < k
  · simp only [hk.delivered i hi, Option.isSome_none, Bool.false_eq_true, false_iff]; omega
  · rw [hk.pending i (by omega)]
    have := latest_none_iff arrivals i
    by_cases hm : i ∈ ids arrivals
    · have hne : i ≠ k := by rintro rfl; exact hn hm
      have : (latestPayload arrivals i).isSome := by
        rw [Option.isSome_iff_ne_none]; intro hc; exact (this.1 hc) hm
      simp only [this, hm, true_and, true_iff]; omega
    · simp [this.2 hm, hm]

/-- A reordered, duplicated, gappy arrival sequence: 0,1,2 are delivered, 4 waits for 3. -/
example : (run new [(2, "c"), (4, "e"), (0, "a"), (2, "c'"), (1, "b"), (0, "a'")]).out = ["a", "b", "c'"] := by
  decide
example : FirstMissing (([2, 4, 0, 2, 1, 0] : List Nat).map (fun i => (i, i * i))) 3 := by
  constructor <;> decide

/-- Outside the range of C08/C09 (after 2^64 messages) the duplicate test, which compares numbers without regard
to wrap-around, throws away a packet that is still needed: number 1 arriving while 0 is awaited again. -/
theorem C09_counterexample_after_wraparound :
    let c : Chan String := { map := [], last := some (2 ^ 64 - 1), out := [] }
    nextExpected c = 0 ∧ (run c [(1, "b"), (0, "a")]).out = ["a"] ∧
    (run c [(0, "a"), (1, "b")]).out = ["a", "b"] := by decide

end Verif.Ordered

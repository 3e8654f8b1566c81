import Verif.Argon.Lemmas

/-! # Properties C248-C251 -/

namespace Verif.Argon

/-- A machine that takes a millisecond for each 1000 KiB and pass, and needs 32 KiB. -/
def sample : Clock := fun _ m k => if m < 32 then none else some (m * k / 1000)

/-! ## C248: settings are returned only when they were measured to take the minimum -/

theorem C248_measured (c : Clock) (minimum start n mem time : Nat)
    (h : after c minimum start n = .done mem time) : ∃ r, AtLeast (c r mem time) minimum := by
  have ht := told_after c minimum start n
  rw [h] at ht
  obtain ⟨_, r, m, _, _, _, _, ha⟩ := ht
  exact ⟨_, ha⟩

/-- Further rounds change nothing. -/
theorem C248_final (c : Clock) (minimum start n k mem time : Nat)
    (h : after c minimum start n = .done mem time) :
    after c minimum start (n + k) = .done mem time := by
  induction k with
  | zero => exact h
  | succ k ih => rw [Nat.add_succ]; show next c minimum (after c minimum start (n + k)) = _
                 rw [ih]; rfl

/-- A hash that fails ends the tuning without settings. -/
theorem C248_fails (c : Clock) (minimum start n r mem time : Nat) (b : Bool)
    (h : after c minimum start n = .trying r mem time b) (hc : c r (mem % 2 ^ 32) time = none)
    (k : Nat) : after c minimum start (n + 1 + k) = .failed := by
  induction k with
  | zero =>
    show next c minimum (after c minimum start n) = _
    rw [h]
    unfold next
    simp only [low, hc]
  | succ k ih =>
    show next c minimum (after c minimum start (n + 1 + k)) = _
    rw [ih]
    rfl

example : after sample 500 (startMem 8000000) 10 = .done 204800 3 := by decide +kernel

/-! ## C249: memory first, then the least number of passes -/

/-- One pass with the memory returned took less than half of the minimum; each number of passes from
two up to the one returned took less than the minimum, in the rounds that followed each other. -/
theorem C249_passes (c : Clock) (minimum start n mem time : Nat)
    (h : after c minimum start n = .done mem time) :
    2 ≤ time ∧ ∃ r, Below (c r mem 1) (minimum / 2) ∧
      (∀ k, 2 ≤ k → k < time → Below (c (r + k - 1) mem k) minimum) ∧
      AtLeast (c (r + time - 1) mem time) minimum := by
  have ht := told_after c minimum start n
  rw [h] at ht
  obtain ⟨h1, r, m, _, _, h2, h3, h4⟩ := ht
  exact ⟨h1, r, h2, h3, h4⟩

/-- The memory is the one begun with, or one with more memory took half of the minimum or longer in
one pass: with a fifth more when it took no more than twice the minimum, else it was divided by how
often the time was over the minimum. -/
theorem C249_memory (c : Clock) (minimum start n mem time : Nat) (hm : 0 < minimum)
    (h : after c minimum start n = .done mem time) :
    mem = start % 2 ^ 32 ∨ ∃ r m e, c r (m % 2 ^ 32) 1 = some e ∧ minimum ≤ 2 * e + 1 ∧
      ((e ≤ 2 * minimum ∧ mem = (m - m / 5) % 2 ^ 32) ∨
        (2 * minimum < e ∧ ∃ t, (t - 1) * minimum < e ∧ e ≤ t * minimum ∧
          mem = m / t % 2 ^ 32)) := by
  have ht := told_after c minimum start n
  rw [h] at ht
  obtain ⟨_, _, m, rfl, hf, _⟩ := ht
  rcases hf with rfl | ⟨r, m', e, hc, he, rfl⟩
  · exact .inl rfl
  · refine .inr ⟨r, m', e, hc, by omega, ?_⟩
    unfold lessMem low
    rw [if_neg (by omega)]
    simp only
    have key : ∀ t, t = (e + minimum - 1) / minimum → e ≤ t * minimum ∧ (t - 1) * minimum < e + (if e = 0 then 1 else 0) := by
      intro t hT
      have h1 : t * minimum ≤ e + minimum - 1 := by rw [hT]; exact Nat.div_mul_le_self _ _
      have h2 : e + minimum - 1 < (t + 1) * minimum := by
        rw [hT]
        have := Nat.lt_div_mul_add (a := e + minimum - 1) hm
        rw [Nat.add_mul, Nat.one_mul]; exact this
      rw [Nat.add_mul, Nat.one_mul] at h2
      rw [Nat.sub_mul, Nat.one_mul]
      constructor
      · omega
      · split <;> omega
    obtain ⟨k1, k2⟩ := key _ rfl
    generalize (e + minimum - 1) / minimum = t at k1 k2 ⊢
    split
    · rename_i h3
      have h4 : 2 * minimum ≤ (t - 1) * minimum := Nat.mul_le_mul_right _ (by omega)
      have h5 : e ≠ 0 := by
        intro h0; rw [if_pos h0] at k2; omega
      rw [if_neg h5] at k2
      refine .inr ⟨by omega, t, by omega, k1, ?_⟩
      have : m' / t ≤ m' := Nat.div_le_self _ _
      rw [Nat.sub_sub_self this]
    · rename_i h3
      have h4 : t * minimum ≤ 2 * minimum := Nat.mul_le_mul_right _ (by omega)
      exact .inl ⟨by omega, rfl⟩

/-! ## C250: for each minimum there are settings in the end -/

/-- Refuted: no settings are ever returned on a machine where even the least memory takes half of
the minimum. -/
theorem C250_counterexample_slow (c : Clock) (minimum start : Nat)
    (hc : ∀ n m e, c n m 1 = some e → minimum / 2 ≤ e) (n mem time : Nat) :
    after c minimum start n ≠ .done mem time := by
  intro h
  have := slow_after c minimum start n hc
  rw [h] at this
  exact this

/-- Refuted: with a minimum of zero or one millisecond, no machine ever gets settings. -/
theorem C250_counterexample_small (c : Clock) (minimum start : Nat) (hm : minimum ≤ 1)
    (n mem time : Nat) : after c minimum start n ≠ .done mem time :=
  C250_counterexample_slow c minimum start
    (fun _ _ _ _ => by rw [Nat.div_eq_of_lt (by omega)]; exact Nat.zero_le _) n mem time

/-- It ends with an error when the hash refuses so little memory. -/
example : after sample 1 (startMem 8000000) 40 = .failed := by decide +kernel
/-- And not at all where it does not. -/
example : after (fun _ _ _ => some 1) 1 4 1000 = .trying 1000 4 1 false := by decide +kernel

/-- Partial: machines that are fit get settings.  What is missing: minima below two milliseconds and
machines that are too slow. -/
theorem C250_partial (c : Clock) (minimum least passes start : Nat) (hf : Fit c minimum least passes)
    (h2 : 2 ≤ minimum) (hl : 5 ≤ least) (hs : least ≤ start) (hs2 : start < 2 ^ 32) :
    ∃ n mem time, least ≤ mem ∧ after c minimum start n = .done mem time :=
  fit_mem hf h2 hl start 0 0 start hs hs2 (Nat.le_refl _) rfl

/-- `sample` is fit. -/
example : Fit sample 500 32 16000000 := by
  refine ⟨?_, ?_, ?_⟩
  · intro n m k h
    simp [sample, Nat.not_lt.mpr h]
  · intro n m e h he
    simp only [sample, Nat.not_lt.mpr h, if_false, Option.some.injEq] at he
    omega
  · intro n m k e h hk he
    simp only [sample, Nat.not_lt.mpr h, if_false, Option.some.injEq] at he
    have : 32 * 16000000 ≤ m * k := Nat.mul_le_mul h hk
    omega

/-! ## C251: the memory is within what is free -/

/-- Refuted: with less free than the default, settings with the default are tried and returned. -/
theorem C251_counterexample (free minimum : Nat) (hf : free < 64 * 1024) (c : Clock) (e e' : Nat)
    (h1 : c 0 (64 * 1024) 1 = some e) (he : e < minimum / 2)
    (h2 : c 1 (64 * 1024) 2 = some e') (he' : minimum ≤ e') :
    after c minimum (startMem free) 2 = .done (64 * 1024) 2 ∧ free < 64 * 1024 := by
  refine ⟨?_, hf⟩
  have hs : startMem free = 65536 := by
    unfold startMem defaultMem
    omega
  have hl : low 65536 = 65536 := by decide
  have h3 : after c minimum (startMem free) 1 = .trying 1 65536 2 true := by
    show next c minimum (.trying 0 (startMem free) 1 false) = _
    unfold next
    simp only [hs, hl, h1]
    simp [he]
  show next c minimum (after c minimum (startMem free) 1) = _
  rw [h3]
  unfold next
  simp only [hl, h2]
  simp [he']

/-- With 1000 KiB free. -/
example : after (fun _ _ k => some (100 + (k - 1) * 700)) 600 (startMem 1000) 2 = .done 65536 2 := by
  decide +kernel

/-- Partial: with the default free, no more than what is free is used; with twice as much, no more
than half.  What is missing: less free than the default. -/
theorem C251_partial (c : Clock) (minimum free n mem time : Nat) (hf : 64 * 1024 ≤ free)
    (h : after c minimum (startMem free) n = .done mem time) :
    mem ≤ free ∧ (2 * (64 * 1024) ≤ free → 2 * mem ≤ free) := by
  have hm := mem_after c minimum (startMem free) n
  rw [h] at hm
  simp only [MemOk, startMem, defaultMem] at hm
  omega

end Verif.Argon

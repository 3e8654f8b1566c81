import Verif.Argon.Spec

namespace Verif.Argon

theorem lessMem_le (minimum mem elapsed : Nat) : lessMem minimum mem elapsed ≤ mem := by
  unfold lessMem
  simp only
  split
  · split <;> omega
  · split <;> omega

theorem low_le (m : Nat) : low m ≤ m := Nat.mod_le _ _

/-! ## Memory only goes down -/

def MemOk (start : Nat) : Status → Prop
  | .trying _ mem _ _ => mem ≤ start
  | .done mem _ => mem ≤ start
  | .failed => True

theorem mem_next (c : Clock) (minimum start : Nat) (s : Status) (h : MemOk start s) :
    MemOk start (next c minimum s) := by
  cases s with
  | trying n mem time tuned =>
    simp only [MemOk] at h
    unfold next
    simp only
    split
    · trivial
    · split
      · split
        · exact Nat.le_trans (low_le mem) h
        · exact h
      · split
        · exact h
        · exact Nat.le_trans (lessMem_le ..) h
  | done mem time => exact h
  | failed => trivial

theorem mem_after (c : Clock) (minimum start n : Nat) : MemOk start (after c minimum start n) := by
  induction n with
  | zero => exact Nat.le_refl start
  | succ n ih => exact mem_next _ _ _ _ ih

/-! ## What was measured -/

/-- Where the memory in use comes from. -/
def From (c : Clock) (minimum start mem : Nat) : Prop :=
  mem = start ∨ ∃ n m e, c n (low m) 1 = some e ∧ minimum / 2 ≤ e ∧ mem = lessMem minimum m e

def Told (c : Clock) (minimum start : Nat) : Status → Prop
  | .trying n mem time false => time = 1 ∧ From c minimum start mem ∧ n + 1 = n + time
  | .trying n mem time true => 2 ≤ time ∧ time ≤ n + 1 ∧ From c minimum start mem ∧
      Below (c (n + 1 - time) (low mem) 1) (minimum / 2) ∧
      ∀ k, 2 ≤ k → k < time → Below (c (n + k - time) (low mem) k) minimum
  | .done mem time => 2 ≤ time ∧ ∃ n m, mem = low m ∧ From c minimum start m ∧
      Below (c n mem 1) (minimum / 2) ∧
      (∀ k, 2 ≤ k → k < time → Below (c (n + k - 1) mem k) minimum) ∧
      AtLeast (c (n + time - 1) mem time) minimum
  | .failed => True

theorem told_next (c : Clock) (minimum start : Nat) (s : Status) (h : Told c minimum start s) :
    Told c minimum start (next c minimum s) := by
  cases s with
  | done mem time => exact h
  | failed => trivial
  | trying n mem time tuned =>
    unfold next
    simp only
    split
    · trivial
    · rename_i e he
      cases tuned with
      | true =>
        obtain ⟨h1, h2, h3, h4, h5⟩ := h
        simp only [if_true]
        split
        · rename_i hm
          refine ⟨h1, n + 1 - time, mem, rfl, h3, h4, ?_, ?_⟩
          · intro k hk hkt
            have := h5 k hk hkt
            rwa [show n + 1 - time + k - 1 = n + k - time by omega]
          · rw [show n + 1 - time + time - 1 = n by omega]
            exact ⟨e, he, hm⟩
        · rename_i hm
          refine ⟨by omega, by omega, h3, ?_, ?_⟩
          · rwa [show n + 1 + 1 - (time + 1) = n + 1 - time by omega]
          · intro k hk hkt
            rw [show n + 1 + k - (time + 1) = n + k - time by omega]
            rcases Nat.lt_or_ge k time with hlt | hge
            · exact h5 k hk hlt
            · have : k = time := by omega
              subst this
              rw [show n + k - k = n by omega]
              exact ⟨e, he, by omega⟩
      | false =>
        obtain ⟨h1, h2, _⟩ := h
        subst h1
        simp only [Bool.false_eq_true, if_false]
        split
        · rename_i hm
          refine ⟨by omega, by omega, h2, ?_, ?_⟩
          · rw [show n + 1 + 1 - (1 + 1) = n by omega]
            exact ⟨e, he, hm⟩
          · intro k hk hkt; omega
        · rename_i hm
          exact ⟨rfl, .inr ⟨n, mem, e, he, by omega, rfl⟩, rfl⟩

theorem told_after (c : Clock) (minimum start n : Nat) :
    Told c minimum start (after c minimum start n) := by
  induction n with
  | zero => exact ⟨rfl, .inl rfl, rfl⟩
  | succ n ih => exact told_next _ _ _ _ ih

/-! ## Machines that are too slow -/

def Slow : Status → Prop
  | .trying _ _ time tuned => time = 1 ∧ tuned = false
  | .done _ _ => False
  | .failed => True

theorem slow_next (c : Clock) (minimum : Nat)
    (hc : ∀ n m e, c n m 1 = some e → minimum / 2 ≤ e) (s : Status) (h : Slow s) :
    Slow (next c minimum s) := by
  cases s with
  | done mem time => exact h
  | failed => trivial
  | trying n mem time tuned =>
    obtain ⟨rfl, rfl⟩ := h
    unfold next
    simp only [Bool.false_eq_true, if_false]
    split
    · trivial
    · rename_i e he
      have := hc n (low mem) e he
      split
      · omega
      · exact ⟨rfl, rfl⟩

theorem slow_after (c : Clock) (minimum start n : Nat)
    (hc : ∀ n m e, c n m 1 = some e → minimum / 2 ≤ e) : Slow (after c minimum start n) := by
  induction n with
  | zero => exact ⟨rfl, rfl⟩
  | succ n ih => exact slow_next c minimum hc _ ih

/-! ## Machines that are fit -/

theorem lessMem_fit {minimum least mem e : Nat} (h2 : 2 ≤ minimum) (hl : 5 ≤ least)
    (hlin : e * (4 * least) ≤ minimum * mem) (he : minimum / 2 ≤ e) :
    least ≤ lessMem minimum mem e ∧ lessMem minimum mem e < mem := by
  have h3 : minimum ≤ 3 * e := by omega
  have hm : 4 * least ≤ 3 * mem := by
    have : minimum * (4 * least) ≤ minimum * (3 * mem) := by
      calc minimum * (4 * least) ≤ 3 * e * (4 * least) := Nat.mul_le_mul_right _ h3
        _ = 3 * (e * (4 * least)) := by rw [Nat.mul_assoc]
        _ ≤ 3 * (minimum * mem) := Nat.mul_le_mul_left _ hlin
        _ = minimum * (3 * mem) := by rw [Nat.mul_left_comm]
    exact Nat.le_of_mul_le_mul_left this (by omega)
  unfold lessMem
  rw [if_neg (by omega)]
  simp only
  split
  · rename_i ht
    generalize hT : (e + minimum - 1) / minimum = t at ht ⊢
    have h4 : t * minimum ≤ e + minimum - 1 := by rw [← hT]; exact Nat.div_mul_le_self _ _
    have h5 : (t - 1) * minimum ≤ e := by rw [Nat.sub_mul]; omega
    have h6 : (t - 1) * (4 * least) ≤ mem := by
      have : minimum * ((t - 1) * (4 * least)) ≤ minimum * mem := by
        calc minimum * ((t - 1) * (4 * least)) = (t - 1) * minimum * (4 * least) := by
              rw [← Nat.mul_assoc, Nat.mul_comm minimum]
          _ ≤ e * (4 * least) := Nat.mul_le_mul_right _ h5
          _ ≤ minimum * mem := hlin
      exact Nat.le_of_mul_le_mul_left this (by omega)
    have h7 : least * t ≤ mem := by
      refine Nat.le_trans ?_ h6
      calc least * t ≤ least * (4 * (t - 1)) := Nat.mul_le_mul_left _ (by omega)
        _ = (t - 1) * (4 * least) := by
          rw [Nat.mul_comm, Nat.mul_comm 4, Nat.mul_assoc]
    have h8 : least ≤ mem / t := (Nat.le_div_iff_mul_le (by omega)).mpr h7
    have h9 : mem / t < mem := Nat.div_lt_self (by omega) (by omega)
    omega
  · omega

theorem after_trying {c : Clock} {minimum start n r mem time : Nat} {b : Bool}
    (h : after c minimum start n = .trying r mem time b) :
    after c minimum start (n + 1) = next c minimum (.trying r mem time b) := by
  rw [← h]; rfl

theorem low_eq {m : Nat} (h : m < 2 ^ 32) : low m = m := Nat.mod_eq_of_lt h

theorem fit_time {c : Clock} {minimum least passes start : Nat} (hf : Fit c minimum least passes) :
    ∀ (d n r mem time : Nat), least ≤ mem → mem < 2 ^ 32 → passes - time ≤ d →
      after c minimum start n = .trying r mem time true →
      ∃ k t, after c minimum start k = .done mem t := by
  intro d
  induction d with
  | zero =>
    intro n r mem time h1 h2 h3 h
    have hn := after_trying h
    have hw := hf.works r mem time h1
    unfold next at hn
    simp only [low_eq h2] at hn
    cases he : c r mem time with
    | none => exact absurd he hw
    | some e =>
      have := hf.slow r mem time e h1 (by omega) he
      rw [he] at hn
      simp only [if_true, this] at hn
      exact ⟨n + 1, time, hn⟩
  | succ d ih =>
    intro n r mem time h1 h2 h3 h
    have hn := after_trying h
    have hw := hf.works r mem time h1
    unfold next at hn
    simp only [low_eq h2] at hn
    cases he : c r mem time with
    | none => exact absurd he hw
    | some e =>
      rw [he] at hn
      simp only [if_true] at hn
      split at hn
      · exact ⟨n + 1, time, hn⟩
      · exact ih (n + 1) (r + 1) mem (time + 1) h1 h2 (by omega) hn

theorem fit_mem {c : Clock} {minimum least passes start : Nat} (hf : Fit c minimum least passes)
    (h2 : 2 ≤ minimum) (hl : 5 ≤ least) :
    ∀ (d n r mem : Nat), least ≤ mem → mem < 2 ^ 32 → mem ≤ d →
      after c minimum start n = .trying r mem 1 false →
      ∃ k m t, least ≤ m ∧ after c minimum start k = .done m t := by
  intro d
  induction d with
  | zero => intro n r mem h1 _ h3 _; omega
  | succ d ih =>
    intro n r mem h1 h3 h4 h
    have hn := after_trying h
    have hw := hf.works r mem 1 h1
    unfold next at hn
    simp only [low_eq h3, Bool.false_eq_true, if_false] at hn
    cases he : c r mem 1 with
    | none => exact absurd he hw
    | some e =>
      rw [he] at hn
      simp only at hn
      split at hn
      · obtain ⟨k, t, hk⟩ := fit_time hf passes (n + 1) (r + 1) mem (1 + 1) h1 h3 (by omega) hn
        exact ⟨k, mem, t, h1, hk⟩
      · rename_i hs
        have hx := lessMem_fit h2 hl (hf.linear r mem e h1 he) (by omega)
        exact ih (n + 1) (r + 1) _ hx.1 (by omega) (by omega) hn

end Verif.Argon

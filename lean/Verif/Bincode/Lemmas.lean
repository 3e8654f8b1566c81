import Verif.Bincode.Spec
namespace Verif.Bincode

theorem length_toLE (n x : Nat) : (toLE n x).length = n := by simp [toLE]
theorem fromLE_toLE {n x : Nat} (h : x < 256 ^ n) : fromLE (toLE n x) = x := by
  simp only [fromLE, toLE, List.reverse_reverse]; exact fromBE_toBE h
theorem toLE_fromLE {b : Bytes} {n : Nat} (h : b.length = n) : toLE n (fromLE b) = b := by
  subst h
  have := toBE_fromBE b.reverse
  rw [List.length_reverse] at this
  simp only [toLE, fromLE, this, List.reverse_reverse]
theorem fromLE_lt {b : Bytes} {n : Nat} (h : b.length = n) : fromLE b < 256 ^ n := by
  have := fromBE_lt b.reverse
  rwa [List.length_reverse, h] at this

/-- These bytes were read. -/
def Moves (b : Bytes) (s s' : St) : Prop :=
  s.rest = b ++ s'.rest ∧ ((s.lim = none ∧ s'.lim = none) ∨ ∃ l, s.lim = some (b.length + l) ∧ s'.lim = some l)

/-- These bytes can be read. -/
def Fits (b : Bytes) (s : St) : Prop := (∃ r, s.rest = b ++ r) ∧ ∀ l, s.lim = some l → b.length ≤ l

theorem Moves.refl (s : St) : Moves [] s s := by
  refine ⟨rfl, ?_⟩
  cases h : s.lim with
  | none => exact .inl ⟨rfl, rfl⟩
  | some l => exact .inr ⟨l, by simp, rfl⟩

theorem Moves.trans {a b : Bytes} {s s1 s2 : St} (h1 : Moves a s s1) (h2 : Moves b s1 s2) : Moves (a ++ b) s s2 := by
  refine ⟨by rw [h1.1, h2.1, List.append_assoc], ?_⟩
  rcases h1.2 with ⟨e1, e2⟩ | ⟨l, e1, e2⟩
  · rcases h2.2 with ⟨e3, e4⟩ | ⟨l, e3, e4⟩
    · exact .inl ⟨e1, e4⟩
    · rw [e2] at e3; exact absurd e3 (by simp)
  · rcases h2.2 with ⟨e3, e4⟩ | ⟨l', e3, e4⟩
    · rw [e2] at e3; exact absurd e3 (by simp)
    · rw [e2] at e3
      simp only [Option.some.injEq] at e3
      exact .inr ⟨l', by rw [e1, e3, List.length_append, Nat.add_assoc], e4⟩

theorem Moves.of_eq {b : Bytes} {s s' t t' : St} (h : Moves b s s') (h1 : t.rest = s.rest) (h2 : t.lim = s.lim)
    (h3 : t'.rest = s'.rest) (h4 : t'.lim = s'.lim) : Moves b t t' := by
  unfold Moves
  rw [h1, h2, h3, h4]
  exact h

theorem Moves.length {b : Bytes} {s s' : St} (h : Moves b s s') : s.rest.length = b.length + s'.rest.length := by
  rw [h.1, List.length_append]

theorem Fits.left {a b : Bytes} {s : St} (h : Fits (a ++ b) s) : Fits a s := by
  obtain ⟨⟨r, hr⟩, hl⟩ := h
  refine ⟨⟨b ++ r, by rw [hr, List.append_assoc]⟩, fun l e => ?_⟩
  have := hl l e
  rw [List.length_append] at this
  omega

theorem Fits.right {a b : Bytes} {s s1 : St} (h : Fits (a ++ b) s) (hm : Moves a s s1) : Fits b s1 := by
  obtain ⟨⟨r, hr⟩, hl⟩ := h
  have h1 := hm.1
  rw [hr, List.append_assoc] at h1
  refine ⟨⟨r, (List.append_cancel_left h1).symm⟩, fun l e => ?_⟩
  rcases hm.2 with ⟨_, e2⟩ | ⟨l', e1, e2⟩
  · rw [e2] at e; exact absurd e (by simp)
  · rw [e2] at e
    simp only [Option.some.injEq] at e
    subst e
    have := hl _ e1
    rw [List.length_append] at this
    omega

theorem Fits.of_eq {b : Bytes} {s t : St} (h : Fits b s) (h1 : t.rest = s.rest) (h2 : t.lim = s.lim) : Fits b t := by
  unfold Fits
  rw [h1, h2]
  exact h

/-! ### Reading bytes -/

theorem read_moves {n : Nat} {s s1 s2 : St} {b : Bytes} (hc : charge n s = some s1) (ht : takeN n s1 = some (b, s2)) :
    b.length = n ∧ Moves b s s2 ∧ s2.alloc = s.alloc ∧ s2.steps = s.steps := by
  unfold takeN at ht
  split at ht
  · rename_i hn
    simp only [Option.some.injEq, Prod.mk.injEq] at ht
    obtain ⟨rfl, rfl⟩ := ht
    unfold charge at hc
    split at hc
    · rename_i hl
      simp only [Option.some.injEq] at hc
      subst hc
      exact ⟨by simp [hn], ⟨by simp, .inl ⟨hl, hl⟩⟩, rfl, rfl⟩
    · rename_i l hl
      split at hc
      · rename_i hle
        simp only [Option.some.injEq] at hc
        subst hc
        exact ⟨by simpa using hn, ⟨by simp, .inr ⟨l - n, by
          rw [hl]
          have hn : n ≤ s.rest.length := hn
          simp only [List.length_take, Option.some.injEq]
          omega, rfl⟩⟩, rfl, rfl⟩
      · exact absurd hc (by simp)
  · exact absurd ht (by simp)

theorem charge_same {n : Nat} {s s1 : St} (hc : charge n s = some s1) :
    s1.rest = s.rest ∧ s1.alloc = s.alloc ∧ s1.steps = s.steps := by
  unfold charge at hc
  split at hc
  · simp only [Option.some.injEq] at hc; subst hc; exact ⟨rfl, rfl, rfl⟩
  · split at hc
    · simp only [Option.some.injEq] at hc; subst hc; exact ⟨rfl, rfl, rfl⟩
    · exact absurd hc (by simp)

theorem charge_fits {b : Bytes} {s : St} (h : Fits b s) : ∃ s1, charge b.length s = some s1 := by
  unfold charge
  split
  · exact ⟨_, rfl⟩
  · rename_i l hl
    rw [if_pos (h.2 l hl)]
    exact ⟨_, rfl⟩

theorem take_fits {b : Bytes} {s : St} {r : Bytes} (h : s.rest = b ++ r) : ∃ s1, takeN b.length s = some (b, s1) := by
  unfold takeN
  rw [h, if_pos (by simp), List.take_left]
  exact ⟨_, rfl⟩

theorem readInt_ok {n : Nat} {s s1 : St} {x : Nat} (h : readInt n s = (some x, s1)) :
    x < 256 ^ n ∧ Moves (toLE n x) s s1 ∧ s1.alloc = s.alloc ∧ s1.steps = s.steps := by
  unfold readInt at h
  split at h
  · simp at h
  · rename_i s' hc
    split at h
    · simp at h
    · rename_i b s2 ht
      simp only [Prod.mk.injEq, Option.some.injEq] at h
      obtain ⟨rfl, rfl⟩ := h
      obtain ⟨h1, h2, h3⟩ := read_moves hc ht
      exact ⟨fromLE_lt h1, by rw [toLE_fromLE h1]; exact h2, h3⟩

theorem readInt_fail {n : Nat} {s s1 : St} (h : readInt n s = (none, s1)) :
    s1.rest = s.rest ∧ s1.alloc = s.alloc ∧ s1.steps = s.steps := by
  unfold readInt at h
  split at h
  · simp only [Prod.mk.injEq, true_and] at h; subst h; exact ⟨rfl, rfl, rfl⟩
  · rename_i s' hc
    split at h
    · simp only [Prod.mk.injEq, true_and] at h; subst h; exact charge_same hc
    · simp at h

theorem readInt_fits {n x : Nat} {s : St} (hx : x < 256 ^ n) (h : Fits (toLE n x) s) : ∃ s1, readInt n s = (some x, s1) := by
  obtain ⟨s1, h1⟩ := charge_fits h
  rw [length_toLE] at h1
  obtain ⟨r, hr⟩ := h.1
  obtain ⟨s2, h2⟩ := take_fits (s := s1) (b := toLE n x) (r := r) (by rw [(charge_same h1).1, hr])
  rw [length_toLE] at h2
  unfold readInt
  rw [h1]
  simp only [h2, fromLE_toLE hx]
  exact ⟨_, rfl⟩

theorem toLE_one_zero : toLE 1 0 = [0] := rfl
theorem toLE_one_one : toLE 1 1 = [1] := rfl

/-! ### What is read is what is written -/

theorem many_sound {α : Type} {f : St → Option α × St} {enc : α → Bytes} {size : Nat}
    (hf : ∀ s a s', f s = (some a, s') → Moves (enc a) s s') :
    ∀ (n room : Nat) (s s' : St) (l : List α), readMany f size n room s = (some l, s') →
      l.length = n ∧ Moves (l.map enc).flatten s s'
  | 0, _, s, s', l, h => by
    simp only [readMany, Prod.mk.injEq, Option.some.injEq] at h
    obtain ⟨rfl, rfl⟩ := h
    exact ⟨rfl, Moves.refl s⟩
  | n + 1, room, s, s', l, h => by
    simp only [readMany] at h
    split at h
    · simp at h
    · rename_i a s1 h1
      split at h
      · simp at h
      · rename_i l' s3 h3
        simp only [Prod.mk.injEq, Option.some.injEq] at h
        obtain ⟨rfl, rfl⟩ := h
        have m1 := hf _ _ _ h1
        have ⟨hl, m2⟩ := many_sound hf n _ _ _ _ h3
        refine ⟨by simp [hl], ?_⟩
        simp only [List.map_cons, List.flatten_cons]
        refine Moves.trans (s1 := s1) (m1.of_eq rfl rfl rfl rfl) (m2.of_eq ?_ ?_ rfl rfl)
        · split <;> rfl
        · split <;> rfl

theorem many_complete {α : Type} {f : St → Option α × St} {enc : α → Bytes} {size : Nat}
    (hf : ∀ s a s', f s = (some a, s') → Moves (enc a) s s') (hg : ∀ s a, Fits (enc a) s → ∃ s', f s = (some a, s')) :
    ∀ (l : List α) (room : Nat) (s : St), Fits (l.map enc).flatten s → ∃ s', readMany f size l.length room s = (some l, s')
  | [], _, s, _ => ⟨s, rfl⟩
  | a :: l, room, s, h => by
    simp only [List.map_cons, List.flatten_cons] at h
    obtain ⟨s1, h1⟩ := hg { s with steps := s.steps + 1 } a (h.left.of_eq rfl rfl)
    have m1 := (hf _ _ _ h1).of_eq (t := s) (t' := s1) rfl rfl rfl rfl
    have h2 := h.right m1
    obtain ⟨s3, h3⟩ := many_complete (size := size) hf hg l (room - 1)
      (if room = 0 then { s1 with alloc := s1.alloc + size } else s1) (h2.of_eq (by split <;> rfl) (by split <;> rfl))
    simp only [List.length_cons, readMany, h1, h3]
    exact ⟨_, rfl⟩

theorem pair_some {α β : Type} {a b : α} {s s' : β} (h : (some a, s) = (some b, s')) : a = b ∧ s = s' := by
  simp only [Prod.mk.injEq, Option.some.injEq] at h; exact h

theorem decode_sound (c : Conf) : ∀ (t : Ty) (s s' : St) (v : Val t), decode c t s = (some v, s') → Moves (encode t v) s s'
  | .unit, s, s', v, h => by
    simp only [decode] at h
    obtain ⟨_, rfl⟩ := pair_some h
    exact Moves.refl s
  | .int n, s, s', v, h => by
    simp only [decode] at h
    split at h
    · rename_i x s1 h1
      obtain ⟨h2, h3, _⟩ := readInt_ok h1
      rw [dif_pos h2] at h
      obtain ⟨rfl, rfl⟩ := pair_some h
      exact h3
    · simp at h
  | .bool, s, s', v, h => by
    simp only [decode] at h
    split at h
    · rename_i s1 h1
      obtain ⟨rfl, rfl⟩ := pair_some h
      exact (readInt_ok h1).2.1
    · rename_i s1 h1
      obtain ⟨rfl, rfl⟩ := pair_some h
      exact (readInt_ok h1).2.1
    · simp at h
  | .option t, s, s', v, h => by
    simp only [decode] at h
    split at h
    · rename_i s1 h1
      obtain ⟨rfl, rfl⟩ := pair_some h
      exact (readInt_ok h1).2.1
    · rename_i s1 h1
      split at h
      · rename_i x s2 h2
        obtain ⟨rfl, rfl⟩ := pair_some h
        exact Moves.trans (a := [1]) (readInt_ok h1).2.1 (decode_sound c t _ _ _ h2)
      · simp at h
    · simp at h
  | .blob valid, s, s', v, h => by
    simp only [decode] at h
    split at h
    · simp at h
    · rename_i len s1 h1
      split at h
      · simp at h
      · rename_i s2 h2
        split at h
        · simp at h
        · rename_i b s4 h4
          split at h
          · rename_i hb
            obtain ⟨rfl, rfl⟩ := pair_some h
            have h4' : ∃ s5, takeN len s2 = some (b, s5) ∧ s5.rest = s4.rest ∧ s5.lim = s4.lim := by
              cases hio : c.io with
              | false => rw [hio] at h4; exact ⟨s4, h4, rfl, rfl⟩
              | true =>
                rw [hio] at h4
                simp only [takeN, if_true] at h4 ⊢
                split at h4
                · rename_i hle
                  rw [if_pos hle]
                  simp only [Option.some.injEq, Prod.mk.injEq] at h4
                  obtain ⟨rfl, rfl⟩ := h4
                  exact ⟨_, rfl, rfl, rfl⟩
                · exact absurd h4 (by simp)
            obtain ⟨s5, h5, e1, e2⟩ := h4'
            obtain ⟨k1, k2, _⟩ := read_moves h2 h5
            subst k1
            refine Moves.trans (readInt_ok h1).2.1 (k2.of_eq rfl rfl ?_ ?_)
            · split <;> exact e1.symm
            · split <;> exact e2.symm
          · simp at h
  | .pair a b, s, s', v, h => by
    simp only [decode] at h
    split at h
    · simp at h
    · rename_i x s1 h1
      split at h
      · simp at h
      · rename_i y s2 h2
        obtain ⟨rfl, rfl⟩ := pair_some h
        exact (decode_sound c a _ _ _ h1).trans (decode_sound c b _ _ _ h2)
  | .enum n f, s, s', v, h => by
    simp only [decode] at h
    split at h
    · simp at h
    · rename_i i s1 h1
      split at h
      · rename_i hi
        split at h
        · simp at h
        · rename_i x s2 h2
          obtain ⟨rfl, rfl⟩ := pair_some h
          exact (readInt_ok h1).2.1.trans (decode_sound c (f i) _ _ _ h2)
      · simp at h
  | .seq t, s, s', v, h => by
    simp only [decode] at h
    split at h
    · simp at h
    · rename_i len s1 h1
      split at h
      · simp at h
      · rename_i l s2 h2
        split at h
        · obtain ⟨rfl, rfl⟩ := pair_some h
          obtain ⟨k1, k2⟩ := many_sound (enc := encode t) (fun s a s' => decode_sound c t s s' a) _ _ _ _ _ h2
          subst k1
          exact (readInt_ok h1).2.1.trans (k2.of_eq rfl rfl rfl rfl)
        · simp at h

theorem decode_complete (c : Conf) : ∀ (t : Ty) (s : St) (v : Val t), Fits (encode t v) s → ∃ s', decode c t s = (some v, s')
  | .unit, s, v, h => ⟨s, rfl⟩
  | .int n, s, v, h => by
    obtain ⟨s1, h1⟩ := readInt_fits v.2 h
    simp only [decode, h1]
    rw [dif_pos v.2]
    exact ⟨_, rfl⟩
  | .bool, s, v, h => by
    cases v with
    | false =>
      obtain ⟨s1, h1⟩ := readInt_fits (n := 1) (x := 0) (s := s) (by decide) h
      simp only [decode, h1]
      exact ⟨_, rfl⟩
    | true =>
      obtain ⟨s1, h1⟩ := readInt_fits (n := 1) (x := 1) (s := s) (by decide) h
      simp only [decode, h1]
      exact ⟨_, rfl⟩
  | .option t, s, v, h => by
    cases v with
    | none =>
      obtain ⟨s1, h1⟩ := readInt_fits (n := 1) (x := 0) (s := s) (by decide) h
      simp only [decode, h1]
      exact ⟨_, rfl⟩
    | some v =>
      have h : Fits (toLE 1 1 ++ encode t v) s := h
      obtain ⟨s1, h1⟩ := readInt_fits (n := 1) (x := 1) (s := s) (by decide) h.left
      obtain ⟨s2, h2⟩ := decode_complete c t s1 v (h.right (readInt_ok h1).2.1)
      simp only [decode, h1, h2]
      exact ⟨_, rfl⟩
  | .blob valid, s, v, h => by
    have h : Fits (toLE 8 v.1.length ++ v.1) s := h
    obtain ⟨s1, h1⟩ := readInt_fits v.2.1 h.left
    have h2 := h.right (readInt_ok h1).2.1
    obtain ⟨s2, h3⟩ := charge_fits h2
    obtain ⟨r, hr⟩ := h2.1
    obtain ⟨s4, h4⟩ := take_fits (s := if c.io then { s2 with alloc := s2.alloc + v.1.length } else s2) (b := v.1) (r := r)
      (by rw [← hr, ← (charge_same h3).1]; split <;> rfl)
    simp only [decode, h1, h3, h4]
    rw [dif_pos v.2]
    exact ⟨_, rfl⟩
  | .pair a b, s, v, h => by
    have h : Fits (encode a v.1 ++ encode b v.2) s := h
    obtain ⟨s1, h1⟩ := decode_complete c a s v.1 h.left
    obtain ⟨s2, h2⟩ := decode_complete c b s1 v.2 (h.right (decode_sound c a _ _ _ h1))
    simp only [decode, h1, h2]
    exact ⟨_, rfl⟩
  | .enum n f, s, v, h => by
    have h : Fits (toLE 4 v.1.1 ++ encode (f v.1.1) v.2) s := h
    obtain ⟨s1, h1⟩ := readInt_fits v.1.2.2 h.left
    obtain ⟨s2, h2⟩ := decode_complete c (f v.1.1) s1 v.2 (h.right (readInt_ok h1).2.1)
    simp only [decode, h1]
    rw [dif_pos v.1.2]
    simp only [h2]
    exact ⟨_, rfl⟩
  | .seq t, s, v, h => by
    have h : Fits (toLE 8 v.1.length ++ (v.1.map (encode t)).flatten) s := h
    obtain ⟨s1, h1⟩ := readInt_fits v.2 h.left
    have h2 := h.right (readInt_ok h1).2.1
    obtain ⟨s2, h3⟩ := many_complete (f := decode c t) (enc := encode t) (size := c.size t)
      (fun s a s' => decode_sound c t s s' a) (fun s a => decode_complete c t s a) v.1 (cautious v.1.length (c.size t))
      { s1 with alloc := s1.alloc + cautious v.1.length (c.size t) * c.size t } (h2.of_eq rfl rfl)
    simp only [decode, h1, h3]
    rw [dif_pos v.2]
    exact ⟨_, rfl⟩

end Verif.Bincode

import Verif.Bincode.Lemmas
namespace Verif.Bincode

/-- Reading so many bytes took no more than this. -/
structure Ok (M len : Nat) (s s' : St) : Prop where
  alloc : s'.alloc ≤ s.alloc + M * len
  steps : s'.steps ≤ s.steps + len

/-- Reading failed and took no more than this. -/
def Bad (M B E : Nat) (s s' : St) : Prop :=
  ∃ u, s.rest.length = u + s'.rest.length ∧ s'.alloc ≤ s.alloc + M * u + B ∧ s'.steps ≤ s.steps + u + E

/-- No memory is taken for bytes that are not there. -/
def Good (c : Conf) (s : St) : Prop := c.io = false ∨ ∃ l, s.lim = some l ∧ l ≤ s.rest.length

theorem Ok.trans {M a b : Nat} {s s1 s2 : St} (h1 : Ok M a s s1) (h2 : Ok M b s1 s2) : Ok M (a + b) s s2 := by
  have := h1.alloc; have := h2.alloc; have := h1.steps; have := h2.steps
  refine ⟨?_, by omega⟩
  rw [Nat.mul_add]; omega

theorem Ok.of_same {M : Nat} {s s' : St} (n : Nat) (h1 : s'.alloc = s.alloc) (h2 : s'.steps = s.steps) : Ok M n s s' :=
  ⟨by omega, by omega⟩

theorem Bad.of_same {M B E : Nat} {s s' : St} (h0 : s'.rest = s.rest) (h1 : s'.alloc = s.alloc) (h2 : s'.steps = s.steps) :
    Bad M B E s s' := ⟨0, by rw [h0]; omega, by omega, by omega⟩

theorem Ok.bad {M B E : Nat} {b : Bytes} {s s1 s2 : St} (h1 : Ok M b.length s s1) (hm : Moves b s s1) (h2 : Bad M B E s1 s2) :
    Bad M B E s s2 := by
  obtain ⟨u, e1, e2, e3⟩ := h2
  have := h1.alloc; have := h1.steps; have := hm.length
  refine ⟨b.length + u, by omega, ?_, by omega⟩
  rw [Nat.mul_add]; omega

theorem Ok.bad' {M B E : Nat} {b : Bytes} {s s1 : St} (h1 : Ok M b.length s s1) (hm : Moves b s s1) : Bad M B E s s1 :=
  h1.bad hm (.of_same rfl rfl rfl)

theorem Good.moves {c : Conf} {b : Bytes} {s s1 : St} (h : Good c s) (hm : Moves b s s1) : Good c s1 := by
  rcases h with h | ⟨l, h1, h2⟩
  · exact .inl h
  · rcases hm.2 with ⟨e, _⟩ | ⟨l', e1, e2⟩
    · rw [h1] at e; exact absurd e (by simp)
    · rw [h1] at e1
      simp only [Option.some.injEq] at e1
      have := hm.length
      exact .inr ⟨l', e2, by omega⟩

theorem Good.of_eq {c : Conf} {s t : St} (h : Good c s) (h1 : t.rest = s.rest) (h2 : t.lim = s.lim) : Good c t := by
  unfold Good; rw [h1, h2]; exact h

theorem readInt_okc {M n x : Nat} {s s1 : St} (h : readInt n s = (some x, s1)) : Ok M (toLE n x).length s s1 :=
  .of_same _ (readInt_ok h).2.2.1 (readInt_ok h).2.2.2

theorem readInt_bad {M B E n : Nat} {s s1 : St} (h : readInt n s = (none, s1)) : Bad M B E s s1 :=
  .of_same (readInt_fail h).1 (readInt_fail h).2.1 (readInt_fail h).2.2

theorem pos_length : ∀ (t : Ty) (v : Val t), Pos t → 1 ≤ (encode t v).length
  | .unit, _, h => h.elim
  | .int n, v, h => by
    show 1 ≤ (toLE n v.1).length
    rw [length_toLE]; exact h
  | .bool, v, _ => by cases v <;> exact Nat.le_refl 1
  | .option t, v, _ => by
    cases v with
    | none => exact Nat.le_refl 1
    | some v => show 1 ≤ (encode t v).length + 1; omega
  | .blob _, v, _ => by
    show 1 ≤ (toLE 8 v.1.length ++ v.1).length
    rw [List.length_append, length_toLE]; omega
  | .pair a b, v, h => by
    show 1 ≤ (encode a v.1 ++ encode b v.2).length
    rw [List.length_append]
    rcases h with h | h
    · have := pos_length a v.1 h; omega
    · have := pos_length b v.2 h; omega
  | .enum _ f, v, _ => by
    show 1 ≤ (toLE 4 v.1.1 ++ encode (f v.1.1) v.2).length
    rw [List.length_append, length_toLE]; omega
  | .seq t, v, _ => by
    show 1 ≤ (toLE 8 v.1.length ++ (v.1.map (encode t)).flatten).length
    rw [List.length_append, length_toLE]; omega

/-- The elements of a sequence. -/
theorem many_cost {α : Type} {c : Conf} {f : St → Option α × St} {enc : α → Bytes} {size M B E : Nat}
    (hs : ∀ s a s', f s = (some a, s') → Moves (enc a) s s') (hp : ∀ a, 1 ≤ (enc a).length)
    (hok : ∀ s a s', Good c s → f s = (some a, s') → s'.alloc ≤ s.alloc + M * (enc a).length ∧
      s'.steps + 1 ≤ s.steps + (enc a).length)
    (hbad : ∀ s s', Good c s → f s = (none, s') → Bad M B E s s') :
    ∀ (n room : Nat) (s : St), Good c s →
      (∀ l s', readMany f size n room s = (some l, s') →
        s'.alloc ≤ s.alloc + M * (l.map enc).flatten.length + (n - room) * size ∧
        s'.steps ≤ s.steps + (l.map enc).flatten.length ∧ n ≤ (l.map enc).flatten.length) ∧
      (∀ s', readMany f size n room s = (none, s') → Bad (M + size) B (E + 1) s s')
  | 0, room, s, _ => by
    refine ⟨fun l s' h => ?_, fun s' h => ?_⟩
    · obtain ⟨rfl, rfl⟩ := pair_some h
      simp
    · simp [readMany] at h
  | n + 1, room, s, hg => by
    have hg1 : Good c { s with steps := s.steps + 1 } := hg.of_eq rfl rfl
    refine ⟨fun l s' h => ?_, fun s' h => ?_⟩
    · simp only [readMany] at h
      split at h
      · simp at h
      · rename_i a s1 h1
        split at h
        · simp at h
        · rename_i l' s3 h3
          obtain ⟨rfl, rfl⟩ := pair_some h
          have m1 := hs _ _ _ h1
          have g1 := hg1.moves m1
          obtain ⟨k1, k2⟩ := hok _ _ _ hg1 h1
          have k1 : s1.alloc ≤ s.alloc + M * (enc a).length := k1
          have k2 : s1.steps + 1 ≤ s.steps + 1 + (enc a).length := k2
          obtain ⟨j1, j2, j3⟩ := (many_cost (size := size) hs hp hok hbad n (room - 1) _ (g1.of_eq (t :=
            if room = 0 then { s1 with alloc := s1.alloc + size } else s1) (by split <;> rfl) (by split <;> rfl))).1 _ _ h3
          have hpa := hp a
          simp only [List.map_cons, List.flatten_cons, List.length_append, Nat.mul_add]
          have j2' : s3.steps ≤ s1.steps + (l'.map enc).flatten.length := by
            refine Nat.le_trans j2 ?_
            split <;> exact Nat.le_refl _
          refine ⟨?_, by omega, by omega⟩
          by_cases hr : room = 0
          · subst hr
            simp only [if_true] at j1
            have e1 : (n + 1 - 0) * size = n * size + size := by rw [Nat.sub_zero, Nat.succ_mul]
            have e2 : (n - (0 - 1)) * size = n * size := by simp
            rw [e1]
            rw [e2] at j1
            omega
          · rw [if_neg hr] at j1
            have e1 : n + 1 - room = n - (room - 1) := by omega
            rw [e1]
            omega
    · simp only [readMany] at h
      split at h
      · rename_i s1 h1
        simp only [Prod.mk.injEq, true_and] at h
        subst h
        obtain ⟨u, e1, e2, e3⟩ := hbad _ _ hg1 h1
        refine ⟨u, e1, ?_, ?_⟩
        · have e2 : s1.alloc ≤ s.alloc + M * u + B := e2
          rw [Nat.add_mul]; omega
        · have e3 : s1.steps ≤ s.steps + 1 + u + E := e3
          omega
      · rename_i a s1 h1
        split at h
        · rename_i s3 h3
          simp only [Prod.mk.injEq, true_and] at h
          subst h
          have m1 := hs _ _ _ h1
          have g1 := hg1.moves m1
          obtain ⟨k1, k2⟩ := hok _ _ _ hg1 h1
          have k1 : s1.alloc ≤ s.alloc + M * (enc a).length := k1
          have k2 : s1.steps + 1 ≤ s.steps + 1 + (enc a).length := k2
          obtain ⟨u, e1, e2, e3⟩ := (many_cost (size := size) hs hp hok hbad n (room - 1) _ (g1.of_eq (t :=
            if room = 0 then { s1 with alloc := s1.alloc + size } else s1) (by split <;> rfl) (by split <;> rfl))).2 _ h3
          have hpa := hp a
          have hml : s.rest.length = (enc a).length + s1.rest.length := m1.length
          have e1' : s1.rest.length = u + s3.rest.length := by
            rw [← e1]; split <;> rfl
          have e2' : s3.alloc ≤ s1.alloc + size + (M + size) * u + B := by
            refine Nat.le_trans e2 ?_
            split
            · exact Nat.le_refl _
            · omega
          have e3' : s3.steps ≤ s1.steps + u + (E + 1) := by
            refine Nat.le_trans e3 ?_
            split <;> exact Nat.le_refl _
          refine ⟨(enc a).length + u, by omega, ?_, by omega⟩
          have := Nat.mul_le_mul_left size hpa
          rw [Nat.mul_add, Nat.add_mul M size (enc a).length]
          omega
        · simp at h

theorem cautious_le (len size : Nat) : cautious len size * size ≤ 2 ^ 20 :=
  Nat.le_trans (Nat.mul_le_mul_right _ (Nat.min_le_right ..)) (Nat.div_mul_le_self ..)

theorem cautious_le_len (len size : Nat) : cautious len size ≤ len := Nat.min_le_left ..

theorem Ok.mono {M M' len len' : Nat} {s s' : St} (h : Ok M len s s') (h1 : M ≤ M') (h2 : len ≤ len') : Ok M' len' s s' := by
  have := h.alloc; have := h.steps; have := Nat.mul_le_mul h1 h2
  exact ⟨by omega, by omega⟩

theorem decode_cost {c : Conf} {K : Nat} (hK : 1 ≤ K) (hsz : ∀ t, c.size t ≤ K) : ∀ (t : Ty) (d : Nat) (s : St), Depth t d → Solid t →
    Good c s →
    (∀ v s', decode c t s = (some v, s') → Ok (K * (d + 1)) (encode t v).length s s' ∧
      (Pos t → s'.steps + 1 ≤ s.steps + (encode t v).length)) ∧
    (∀ s', decode c t s = (none, s') → Bad (K * (d + 1)) (d * 2 ^ 20) d s s')
  | .unit, d, s, _, _, _ => by
    refine ⟨fun v s' h => ?_, fun s' h => ?_⟩
    · simp only [decode] at h
      obtain ⟨_, rfl⟩ := pair_some h
      exact ⟨.of_same _ rfl rfl, fun h => h.elim⟩
    · simp [decode] at h
  | .int n, d, s, _, _, _ => by
    refine ⟨fun v s' h => ?_, fun s' h => ?_⟩
    · have hp := pos_length (.int n) v
      simp only [decode] at h
      split at h
      · rename_i x s1 h1
        rw [dif_pos (readInt_ok h1).1] at h
        obtain ⟨rfl, rfl⟩ := pair_some h
        exact ⟨readInt_okc h1, fun h => by have := (readInt_ok h1).2.2.2; have := hp h; omega⟩
      · simp at h
    · simp only [decode] at h
      split at h
      · rename_i x s1 h1
        rw [dif_pos (readInt_ok h1).1] at h
        simp at h
      · rename_i s1 h1
        simp only [Prod.mk.injEq, true_and] at h; subst h
        exact readInt_bad h1
  | .bool, d, s, _, _, _ => by
    refine ⟨fun v s' h => ?_, fun s' h => ?_⟩
    · simp only [decode] at h
      split at h
      · rename_i s1 h1
        obtain ⟨rfl, rfl⟩ := pair_some h
        exact ⟨readInt_okc h1, fun _ => by rw [(readInt_ok h1).2.2.2]; exact Nat.le_refl _⟩
      · rename_i s1 h1
        obtain ⟨rfl, rfl⟩ := pair_some h
        exact ⟨readInt_okc h1, fun _ => by rw [(readInt_ok h1).2.2.2]; exact Nat.le_refl _⟩
      · simp at h
    · simp only [decode] at h
      split at h
      · simp at h
      · simp at h
      · rename_i o s1 _ _ h1
        simp only [Prod.mk.injEq, true_and] at h; subst h
        cases o with
        | none => exact readInt_bad h1
        | some x => exact (readInt_okc h1).bad' (readInt_ok h1).2.1
  | .option t, d, s, hd, hs, hg => by
    refine ⟨fun v s' h => ?_, fun s' h => ?_⟩
    · simp only [decode] at h
      split at h
      · rename_i s1 h1
        obtain ⟨rfl, rfl⟩ := pair_some h
        exact ⟨readInt_okc h1, fun _ => by rw [(readInt_ok h1).2.2.2]; exact Nat.le_refl _⟩
      · rename_i s1 h1
        split at h
        · rename_i x s2 h2
          obtain ⟨rfl, rfl⟩ := pair_some h
          have k := ((decode_cost hK hsz t d s1 hd hs (hg.moves (readInt_ok h1).2.1)).1 _ _ h2).1
          have k' : Ok (K * (d + 1)) (1 + (encode t x).length) s s2 := (readInt_okc h1).trans k
          refine ⟨k'.mono (Nat.le_refl _) (by show _ ≤ (encode t x).length + 1; omega), fun _ => ?_⟩
          have := k.steps
          rw [(readInt_ok h1).2.2.2] at this
          show s2.steps + 1 ≤ s.steps + ((encode t x).length + 1)
          omega
        · simp at h
      · simp at h
    · simp only [decode] at h
      split at h
      · simp at h
      · rename_i s1 h1
        split at h
        · simp at h
        · rename_i s2 h2
          simp only [Prod.mk.injEq, true_and] at h; subst h
          exact (readInt_okc h1).bad (readInt_ok h1).2.1
            ((decode_cost hK hsz t d s1 hd hs (hg.moves (readInt_ok h1).2.1)).2 _ h2)
      · rename_i o s1 _ _ h1
        simp only [Prod.mk.injEq, true_and] at h; subst h
        cases o with
        | none => exact readInt_bad h1
        | some x => exact (readInt_okc h1).bad' (readInt_ok h1).2.1
  | .blob valid, d, s, _, _, hg => by
    have hM : 1 ≤ K * (d + 1) := Nat.mul_le_mul hK (by omega : 1 ≤ d + 1)
    -- what the states of the two readers are
    have tail : ∀ (len : Nat) (s1 s2 s4 : St) (b : Bytes), charge len s1 = some s2 →
        takeN len (if c.io then { s2 with alloc := s2.alloc + len } else s2) = some (b, s4) →
        b.length = len ∧ Moves b s1 (if c.io then s4 else { s4 with alloc := s4.alloc + len }) ∧
        (if c.io then s4 else { s4 with alloc := s4.alloc + len }).alloc = s1.alloc + len ∧
        (if c.io then s4 else { s4 with alloc := s4.alloc + len }).steps = s1.steps := by
      intro len s1 s2 s4 b h2 h4
      cases hio : c.io with
      | false =>
        rw [hio] at h4
        obtain ⟨k1, k2, k3, k4⟩ := read_moves h2 h4
        exact ⟨k1, k2.of_eq rfl rfl rfl rfl, by simp [k3], by simp [k4]⟩
      | true =>
        rw [hio] at h4
        obtain ⟨c1, c2, c3⟩ := charge_same h2
        simp only [takeN, if_true] at h4 ⊢
        split at h4
        · rename_i hle
          simp only [Option.some.injEq, Prod.mk.injEq] at h4
          obtain ⟨rfl, rfl⟩ := h4
          have : takeN len s2 = some (s2.rest.take len, { s2 with rest := s2.rest.drop len }) := by
            unfold takeN; rw [if_pos hle]
          obtain ⟨k1, k2, k3, k4⟩ := read_moves h2 this
          exact ⟨k1, k2.of_eq rfl rfl rfl rfl, by simp only; omega, c3⟩
        · exact absurd h4 (by simp)
    have okc : ∀ (len : Nat) (s1 s5 : St) (b : Bytes), readInt 8 s = (some len, s1) → b.length = len → Moves b s1 s5 →
        s5.alloc = s1.alloc + len → s5.steps = s1.steps →
        Ok (K * (d + 1)) (toLE 8 len ++ b).length s s5 ∧ s5.steps + 1 ≤ s.steps + (toLE 8 len ++ b).length := by
      intro len s1 s5 b h1 e1 e2 e3 e4
      have i1 := (readInt_ok h1).2.2
      rw [List.length_append, length_toLE, e1]
      refine ⟨⟨?_, by omega⟩, by omega⟩
      have := Nat.mul_le_mul hM (Nat.le_refl len)
      rw [Nat.mul_add]
      omega
    refine ⟨fun v s' h => ?_, fun s' h => ?_⟩
    · simp only [decode] at h
      split at h
      · simp at h
      · rename_i len s1 h1
        split at h
        · simp at h
        · rename_i s2 h2
          split at h
          · simp at h
          · rename_i b s4 h4
            split at h
            · rename_i hb
              obtain ⟨rfl, rfl⟩ := pair_some h
              obtain ⟨e1, e2, e3, e4⟩ := tail _ _ _ _ _ h2 h4
              have := okc _ _ _ _ h1 e1 e2 e3 e4
              subst e1
              exact ⟨this.1, fun _ => this.2⟩
            · simp at h
    · simp only [decode] at h
      split at h
      · rename_i s1 h1
        simp only [Prod.mk.injEq, true_and] at h; subst h
        exact readInt_bad h1
      · rename_i len s1 h1
        have g1 := hg.moves (readInt_ok h1).2.1
        split at h
        · simp only [Prod.mk.injEq, true_and] at h; subst h
          exact (readInt_okc h1).bad' (readInt_ok h1).2.1
        · rename_i s2 h2
          obtain ⟨c1, c2, c3⟩ := charge_same h2
          split at h
          · rename_i h4
            simp only [Prod.mk.injEq, true_and] at h; subst h
            cases hio : c.io with
            | false =>
              exact (readInt_okc h1).bad (readInt_ok h1).2.1 (.of_same c1 c2 c3)
            | true =>
              exfalso
              rw [hio] at h4
              simp only [takeN, if_true] at h4
              split at h4
              · exact absurd h4 (by simp)
              · rename_i hle
                rcases g1 with g | ⟨l, g1, g2⟩
                · rw [hio] at g; exact absurd g (by simp)
                · unfold charge at h2
                  rw [g1] at h2
                  simp only at h2
                  split at h2
                  · rename_i hl
                    rw [c1] at hle
                    omega
                  · exact absurd h2 (by simp)
          · rename_i b s4 h4
            split at h
            · simp at h
            · simp only [Prod.mk.injEq, true_and] at h; subst h
              obtain ⟨e1, e2, e3, e4⟩ := tail _ _ _ _ _ h2 h4
              exact (okc _ _ _ _ h1 e1 e2 e3 e4).1.bad' ((readInt_ok h1).2.1.trans e2)
  | .pair a b, d, s, hd, hs, hg => by
    refine ⟨fun v s' h => ?_, fun s' h => ?_⟩
    · simp only [decode] at h
      split at h
      · simp at h
      · rename_i x s1 h1
        split at h
        · simp at h
        · rename_i y s2 h2
          obtain ⟨rfl, rfl⟩ := pair_some h
          obtain ⟨k1, k2⟩ := (decode_cost hK hsz a d s hd.1 hs.1 hg).1 _ _ h1
          obtain ⟨j1, j2⟩ := (decode_cost hK hsz b d s1 hd.2 hs.2 (hg.moves (decode_sound c a _ _ _ h1))).1 _ _ h2
          have e : (encode (.pair a b) (x, y)).length = (encode a x).length + (encode b y).length := List.length_append ..
          rw [e]
          refine ⟨k1.trans j1, fun hp => ?_⟩
          have := k1.steps; have := j1.steps
          rcases hp with hp | hp
          · have := k2 hp; omega
          · have := j2 hp; omega
    · simp only [decode] at h
      split at h
      · rename_i s1 h1
        simp only [Prod.mk.injEq, true_and] at h; subst h
        exact (decode_cost hK hsz a d s hd.1 hs.1 hg).2 _ h1
      · rename_i x s1 h1
        split at h
        · rename_i s2 h2
          simp only [Prod.mk.injEq, true_and] at h; subst h
          have m := decode_sound c a _ _ _ h1
          exact ((decode_cost hK hsz a d s hd.1 hs.1 hg).1 _ _ h1).1.bad m
            ((decode_cost hK hsz b d s1 hd.2 hs.2 (hg.moves m)).2 _ h2)
        · simp at h
  | .enum n f, d, s, hd, hs, hg => by
    refine ⟨fun v s' h => ?_, fun s' h => ?_⟩
    · simp only [decode] at h
      split at h
      · simp at h
      · rename_i i s1 h1
        split at h
        · rename_i hi
          split at h
          · simp at h
          · rename_i x s2 h2
            obtain ⟨rfl, rfl⟩ := pair_some h
            have k := ((decode_cost hK hsz (f i) d s1 (hd i hi.1) (hs i hi.1) (hg.moves (readInt_ok h1).2.1)).1 _ _ h2).1
            have e : (encode (.enum n f) ⟨⟨i, hi⟩, x⟩).length = (toLE 4 i).length + (encode (f i) x).length := List.length_append ..
            rw [e]
            refine ⟨(readInt_okc h1).trans k, fun _ => ?_⟩
            have := k.steps
            rw [(readInt_ok h1).2.2.2] at this
            rw [length_toLE]
            omega
        · simp at h
    · simp only [decode] at h
      split at h
      · rename_i s1 h1
        simp only [Prod.mk.injEq, true_and] at h; subst h
        exact readInt_bad h1
      · rename_i i s1 h1
        split at h
        · rename_i hi
          split at h
          · rename_i s2 h2
            simp only [Prod.mk.injEq, true_and] at h; subst h
            exact (readInt_okc h1).bad (readInt_ok h1).2.1
              ((decode_cost hK hsz (f i) d s1 (hd i hi.1) (hs i hi.1) (hg.moves (readInt_ok h1).2.1)).2 _ h2)
          · simp at h
        · simp only [Prod.mk.injEq, true_and] at h; subst h
          exact (readInt_okc h1).bad' (readInt_ok h1).2.1
  | .seq t, 0, s, hd, hs, hg => absurd hd.1 (by simp)
  | .seq t, d + 1, s, hd, hs, hg => by
    have hd' : Depth t d := hd.2
    have many := fun (len : Nat) (s1 : St) (g : Good c s1) => many_cost (c := c) (f := decode c t) (enc := encode t) (size := c.size t)
      (M := K * (d + 1)) (B := d * 2 ^ 20) (E := d) (fun s a s' => decode_sound c t s s' a) (fun a => pos_length t a hs.1)
      (fun s a s' g h => by
        obtain ⟨k1, k2⟩ := (decode_cost hK hsz t d s hd' hs.2 g).1 _ _ h
        exact ⟨k1.alloc, k2 hs.1⟩)
      (fun s s' g h => (decode_cost hK hsz t d s hd' hs.2 g).2 _ h)
      len (cautious len (c.size t)) { s1 with alloc := s1.alloc + cautious len (c.size t) * c.size t } (g.of_eq rfl rfl)
    have hM : K * (d + 1 + 1) = K * (d + 1) + K := Nat.mul_succ ..
    have hk := hsz t
    refine ⟨fun v s' h => ?_, fun s' h => ?_⟩
    · simp only [decode] at h
      split at h
      · simp at h
      · rename_i len s1 h1
        split at h
        · simp at h
        · rename_i l s2 h2
          split at h
          · obtain ⟨rfl, rfl⟩ := pair_some h
            obtain ⟨k1, k2, k3⟩ := (many len s1 (hg.moves (readInt_ok h1).2.1)).1 _ _ h2
            have k1 : s2.alloc ≤ s1.alloc + cautious len (c.size t) * c.size t + K * (d + 1) * (l.map (encode t)).flatten.length +
              (len - cautious len (c.size t)) * c.size t := k1
            have k2 : s2.steps ≤ s1.steps + (l.map (encode t)).flatten.length := k2
            obtain ⟨i1, i2, i3, i4⟩ := readInt_ok h1
            have e : (encode (.seq t) ⟨l, by assumption⟩).length = 8 + (l.map (encode t)).flatten.length := by
              show (toLE 8 l.length ++ (l.map (encode t)).flatten).length = _
              rw [List.length_append, length_toLE]
            rw [e]
            refine ⟨⟨?_, by omega⟩, fun _ => by omega⟩
            have hsum : cautious len (c.size t) * c.size t + (len - cautious len (c.size t)) * c.size t = len * c.size t := by
              rw [← Nat.add_mul]
              congr 1
              have := cautious_le_len len (c.size t)
              omega
            have h5 : len * c.size t ≤ (l.map (encode t)).flatten.length * K := Nat.mul_le_mul k3 hk
            rw [hM, Nat.add_mul, Nat.mul_add (K * (d + 1)) 8 _, Nat.mul_add K 8 _, Nat.mul_comm K (l.map (encode t)).flatten.length]
            omega
          · simp at h
    · simp only [decode] at h
      split at h
      · rename_i s1 h1
        simp only [Prod.mk.injEq, true_and] at h; subst h
        exact readInt_bad h1
      · rename_i len s1 h1
        split at h
        · rename_i s2 h2
          simp only [Prod.mk.injEq, true_and] at h; subst h
          obtain ⟨u, e1, e2, e3⟩ := (many len s1 (hg.moves (readInt_ok h1).2.1)).2 _ h2
          refine (readInt_okc h1).bad (readInt_ok h1).2.1 ⟨u, e1, ?_, ?_⟩
          · have e2 : s2.alloc ≤ s1.alloc + cautious len (c.size t) * c.size t + (K * (d + 1) + c.size t) * u + d * 2 ^ 20 := e2
            have := cautious_le len (c.size t)
            have h6 : (K * (d + 1) + c.size t) * u ≤ (K * (d + 1) + K) * u := Nat.mul_le_mul (by omega) (Nat.le_refl u)
            rw [hM]
            omega
          · have e3 : s2.steps ≤ s1.steps + u + (d + 1) := e3
            omega
        · rename_i l s2 h2
          have := (many_sound (enc := encode t) (fun s a s' => decode_sound c t s s' a) _ _ _ _ _ h2).1
          rw [dif_pos (by rw [this]; exact (readInt_ok h1).1)] at h
          simp at h

end Verif.Bincode

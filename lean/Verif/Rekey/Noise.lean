import Verif.Rekey.Inv
/-
The trigger task of the initiator keeps `Noise`, whatever the stage.
-/
namespace Verif.Rekey

theorem Old.nil (v : Nat) : Old v [] := by intro m hm; cases hm

theorem Old.tail {v : Nat} {m : Msg} {l : List Msg} (h : Old v (m :: l)) : Old v l :=
  fun k hk => h k (List.mem_cons_of_mem _ hk)

theorem Old.append {v : Nat} {l l' : List Msg} (h : Old v l) (h' : Old v l') : Old v (l ++ l') := by
  intro m hm
  rcases List.mem_append.mp hm with hm | hm
  · exact h m hm
  · exact h' m hm

theorem Old.left {v : Nat} {l l' : List Msg} (h : Old v (l ++ l')) : Old v l :=
  fun m hm => h m (List.mem_append_left _ hm)

theorem Old.right {v : Nat} {l l' : List Msg} (h : Old v (l ++ l')) : Old v l' :=
  fun m hm => h m (List.mem_append_right _ hm)

theorem Old.mono {v w : Nat} {l : List Msg} (h : Old v l) (hw : v ≤ w) : Old w l := by
  intro m hm
  obtain ⟨a, u, e, hu⟩ := h m hm
  exact ⟨a, u, e, by omega⟩

theorem Old.single {v a u : Nat} (h : u < v) : Old v [.aliceToBob a u u] := by
  intro m hm
  rw [List.mem_singleton.mp hm]
  exact ⟨a, u, rfl, h⟩

theorem put_same {α : Type} (f : Nat → Option α) (k : Nat) (v : α) : put f k v k = some v := by simp [put]

theorem put_ne {α : Type} (f : Nat → Option α) {k j : Nat} (v : α) (h : j ≠ k) : put f k v j = f j := by
  simp [put, h]

theorem del_same {α : Type} (f : Nat → Option α) (k : Nat) : del f k k = none := by simp [del]

theorem del_ne {α : Type} (f : Nat → Option α) {k j : Nat} (h : j ≠ k) : del f k j = f j := by
  simp [del, h]

theorem del_none {α : Type} (f : Nat → Option α) {k j : Nat} (h : f j = none) : del f k j = none := by
  unfold del; split <;> simp [h]

/-- The fields of an endpoint the trigger task does not write. -/
structure Frame (x x' : EP) : Prop where
  latest : x'.latest = x.latest
  role : x'.role = x.role
  oldest : x'.oldest = x.oldest
  most : x'.most = x.most
  keys : x'.keys = x.keys
  b : x'.b = x.b
  rmeta : x'.rmeta = x.rmeta
  skipped : x'.skipped = x.skipped

theorem frame_refl (x : EP) : Frame x x := ⟨rfl, rfl, rfl, rfl, rfl, rfl, rfl, rfl⟩

/-- A step of the initiator's trigger task. -/
theorem noise_trig {q : Prop} {x : EP} {tr : List Msg} {fr : Nat} (h : Noise q x tr)
    (hk : (x.keys x.latest).isSome = true) (hl : x.role = .idle → ¬ Late x) :
    Noise q (tMacro x fr).1 (tr ++ (tMacro x fr).2) ∧ Frame x (tMacro x fr).1 ∧
      (tr ++ (tMacro x fr).2).length + budget (tMacro x fr).1 ≤ tr.length + budget x ∧
      (Late x → (tr ++ (tMacro x fr).2).length + pending (tMacro x fr).1 ≤ tr.length + pending x) := by
  obtain ⟨hdc, hhi, hlo, hst⟩ := h
  have refused : x.t = .idle → (x.latest < x.declared ∨ x.role ≠ .idle ∨ x.tog = true) → Trig q x tr →
      Noise q (tMacro x fr).1 (tr ++ (tMacro x fr).2) ∧ Frame x (tMacro x fr).1 ∧
      (tr ++ (tMacro x fr).2).length + budget (tMacro x fr).1 ≤ tr.length + budget x ∧
      (Late x → (tr ++ (tMacro x fr).2).length + pending (tMacro x fr).1 ≤ tr.length + pending x) := by
    intro ht hc hst'
    rw [tMacro_refused ht hc]
    simp only [List.append_nil]
    exact ⟨⟨hdc, hhi, hlo, hst'⟩, frame_refl x, Nat.le_refl _, fun _ => Nat.le_refl _⟩
  have hst' := hst
  rcases hst with ⟨ht, ho, hc⟩ | ⟨a, pre, ht, htr, ho, hc, hd, hL⟩ | ⟨c, ht, ho, hd, hL⟩ | ⟨c, ht, ho, hc, hd, hL⟩ |
    ⟨c, ht, ho, hc, hd, hL⟩ | ⟨u, c, hu, ht, ho, hc⟩ | ⟨u, c, hu, ht, ho, hc⟩ | ⟨u, c, hu, ht, ho, hc⟩ |
    ⟨u, c, hu, ht, ho, hc⟩
  · by_cases hd : x.declared ≤ x.latest
    · by_cases hr : x.role = .idle
      · by_cases hg : x.tog = true
        · exact refused ht (Or.inr (Or.inr hg)) hst'
        · have hg' : x.tog = false := by simpa using hg
          rw [tMacro_start ht hd hr hg' hk]
          simp only [List.append_nil]
          refine ⟨⟨hdc, hhi, ?_, .fresh8 fr rfl ho (by dsimp only; omega) (hl hr)⟩, ⟨rfl, rfl, rfl, rfl, rfl, rfl, rfl, rfl⟩, ?_, ?_⟩
          · intro hq hb k hk' hne
            obtain ⟨u, c, e, _⟩ := hlo hq hb k hk' hne
            rw [ht] at e; cases e
          · simp [budget, ht, hd]
          · intro hL; exact absurd hL (hl hr)
      · exact refused ht (Or.inr (Or.inl hr)) hst'
    · exact refused ht (Or.inl (by omega)) hst'
  · exact refused ht (Or.inl (by omega)) hst'
  · rw [tMacro_declare ht]
    simp only [List.append_nil]
    refine ⟨⟨by dsimp only; omega, ?_, ?_, .fresh11 c rfl ho ?_ ?_ hL⟩, ⟨rfl, rfl, rfl, rfl, rfl, rfl, rfl, rfl⟩, ?_, ?_⟩
    · intro k hk'
      dsimp only at hk' ⊢
      rw [put_ne _ _ (by omega)]; exact hhi k hk'
    · intro hq hb k hk' hne
      dsimp only at hk' hne
      rw [put_ne _ _ (by omega)] at hne
      obtain ⟨u, c, e, _⟩ := hlo hq hb k hk' hne
      rw [ht] at e; cases e
    · exact put_same _ _ _
    · dsimp only; omega
    · simp [budget, ht]
    · simp [pending, ht]
  · rw [tMacro_check_ok ht rfl]
    simp only [List.append_nil]
    refine ⟨⟨hdc, hhi, ?_, .fresh15 c rfl ho hc hd hL⟩, ⟨rfl, rfl, rfl, rfl, rfl, rfl, rfl, rfl⟩, ?_, ?_⟩
    · intro hq hb k hk' hne
      obtain ⟨u, c, e, e'⟩ := hlo hq hb k hk' hne
      rw [ht] at e; cases e
      dsimp only at hk'; omega
    · simp [budget, ht]
    · intro hL'; exact absurd hL' hL
  · rw [tMacro_send ht]
    refine ⟨⟨hdc, hhi, ?_, .sent c tr rfl rfl ho hc hd hL⟩, ⟨rfl, rfl, rfl, rfl, rfl, rfl, rfl, rfl⟩, ?_, ?_⟩
    · intro hq hb k hk' hne
      obtain ⟨u, c, e, e'⟩ := hlo hq hb k hk' hne
      rw [ht] at e; cases e
    · simp [budget, ht, hd]
      split <;> omega
    · intro hL'; exact absurd hL' hL
  · rw [tMacro_declare ht]
    simp only [List.append_nil]
    refine ⟨⟨by dsimp only; omega, ?_, ?_, .stale11 u c hu rfl ho ?_⟩, ⟨rfl, rfl, rfl, rfl, rfl, rfl, rfl, rfl⟩, ?_, ?_⟩
    · intro k hk'
      dsimp only at hk' ⊢
      rw [put_ne _ _ (by omega)]; exact hhi k hk'
    · intro hq hb k hk' hne
      dsimp only at hk' hne
      by_cases hku : k = u + 1
      · exact ⟨u, c, rfl, hku⟩
      · rw [put_ne _ _ hku] at hne
        obtain ⟨u, c, e, _⟩ := hlo hq hb k hk' hne
        rw [ht] at e; cases e
    · intro hq
      dsimp only
      rw [put_ne _ _ (by omega)]; exact (hc hq).2.1
    · simp [budget, ht]
    · simp [pending, ht]
  · rw [tMacro_check_stale ht (by omega)]
    simp only [List.append_nil]
    refine ⟨⟨Nat.le_refl _, ?_, ?_, .sleep u c hu rfl ho ?_⟩, ⟨rfl, rfl, rfl, rfl, rfl, rfl, rfl, rfl⟩, ?_, ?_⟩
    · intro k hk'
      exact del_none _ (hhi k hk')
    · intro hq hb k hk' hne
      dsimp only at hk' hne
      by_cases hku : k = u + 1
      · rw [hku, del_same] at hne; exact absurd rfl hne
      · rw [del_ne _ hku] at hne
        obtain ⟨u', c', e, e'⟩ := hlo hq hb k hk' hne
        rw [ht] at e
        injection e with e
        injection e with e _ _ _ _
        omega
    · intro hq
      exact ⟨rfl, del_none _ (hc hq), fun _ => rfl⟩
    · simp [budget, ht]
    · simp [pending, ht]
  · rw [tMacro_send ht]
    refine ⟨⟨hdc, hhi, ?_, .rest rfl (ho.append (Old.single hu)) hc⟩, ⟨rfl, rfl, rfl, rfl, rfl, rfl, rfl, rfl⟩, ?_, ?_⟩
    · intro hq hb k hk' hne
      obtain ⟨u, c, e, e'⟩ := hlo hq hb k hk' hne
      rw [ht] at e; cases e
    · have : u ≠ x.latest := by omega
      simp [budget, ht, this]
      split <;> omega
    · simp [pending, ht]
  · rw [tMacro_sleep ht hu]
    simp only [List.append_nil]
    refine ⟨⟨hdc, hhi, ?_, .rest rfl ho hc⟩, ⟨rfl, rfl, rfl, rfl, rfl, rfl, rfl, rfl⟩, ?_, ?_⟩
    · intro hq hb k hk' hne
      obtain ⟨u, c, e, e'⟩ := hlo hq hb k hk' hne
      rw [ht] at e; cases e
    · simp [budget, ht]
      split <;> omega
    · simp [pending, ht]

/-- Nothing but the program counter of the background task, its role and key store has changed, and the round is
still open. -/
theorem noise_bg {q : Prop} {x x' : EP} {tr : List Msg} (h : Noise q x tr) (hl : x'.latest = x.latest)
    (hd : x'.declared = x.declared) (hc : x'.cons = x.cons) (ht : x'.t = x.t) (hL : ¬ Late x') :
    Noise False x' tr := by
  obtain ⟨hdc, hhi, _, hst⟩ := h
  refine ⟨by rw [hl, hd]; exact hdc, by rw [hl, hc]; exact hhi, fun h => h.elim, ?_⟩
  rcases hst with ⟨ht', ho, hc'⟩ | ⟨a, pre, ht', htr, ho, hc', hd', hL'⟩ | ⟨c, ht', ho, hd', hL'⟩ |
    ⟨c, ht', ho, hc', hd', hL'⟩ | ⟨c, ht', ho, hc', hd', hL'⟩ | ⟨u, c, hu, ht', ho, hc'⟩ | ⟨u, c, hu, ht', ho, hc'⟩ |
    ⟨u, c, hu, ht', ho, hc'⟩ | ⟨u, c, hu, ht', ho, hc'⟩
  · exact .rest (ht.trans ht') (by rw [hl]; exact ho) (fun h => h.elim)
  · exact .sent a pre (ht.trans ht') (by rw [hl]; exact htr) (by rw [hl]; exact ho) (by rw [hl, hc]; exact hc')
      (by rw [hl, hd]; exact hd') hL
  · exact .fresh8 c (by rw [hl]; exact ht.trans ht') (by rw [hl]; exact ho) (by rw [hl, hd]; exact hd') hL
  · exact .fresh11 c (by rw [hl]; exact ht.trans ht') (by rw [hl]; exact ho) (by rw [hl, hc]; exact hc')
      (by rw [hl, hd]; exact hd') hL
  · exact .fresh15 c (by rw [hl]; exact ht.trans ht') (by rw [hl]; exact ho) (by rw [hl, hc]; exact hc')
      (by rw [hl, hd]; exact hd') hL
  · exact .stale8 u c (by rw [hl]; exact hu) (ht.trans ht') (by rw [hl]; exact ho) (fun h => h.elim)
  · exact .stale11 u c (by rw [hl]; exact hu) (ht.trans ht') (by rw [hl]; exact ho) (fun h => h.elim)
  · exact .stale15 u c (by rw [hl]; exact hu) (ht.trans ht') (by rw [hl]; exact ho) (fun h => h.elim)
  · exact .sleep u c (by rw [hl]; exact hu) (ht.trans ht') (by rw [hl]; exact ho) (fun h => h.elim)

/-- Forgetting that the other side has not proposed. -/
theorem Noise.weaken {q q' : Prop} {x : EP} {tr : List Msg} (h : Noise q x tr) (hq : q' → q) : Noise q' x tr := by
  obtain ⟨hdc, hhi, hlo, hst⟩ := h
  refine ⟨hdc, hhi, fun h => hlo (hq h), ?_⟩
  rcases hst with ⟨ht', ho, hc'⟩ | ⟨a, pre, ht', htr, ho, hc', hd', hL'⟩ | ⟨c, ht', ho, hd', hL'⟩ |
    ⟨c, ht', ho, hc', hd', hL'⟩ | ⟨c, ht', ho, hc', hd', hL'⟩ | ⟨u, c, hu, ht', ho, hc'⟩ | ⟨u, c, hu, ht', ho, hc'⟩ |
    ⟨u, c, hu, ht', ho, hc'⟩ | ⟨u, c, hu, ht', ho, hc'⟩
  · exact .rest ht' ho (fun h => hc' (hq h))
  · exact .sent a pre ht' htr ho hc' hd' hL'
  · exact .fresh8 c ht' ho hd' hL'
  · exact .fresh11 c ht' ho hc' hd' hL'
  · exact .fresh15 c ht' ho hc' hd' hL'
  · exact .stale8 u c hu ht' ho (fun h => hc' (hq h))
  · exact .stale11 u c hu ht' ho (fun h => hc' (hq h))
  · exact .stale15 u c hu ht' ho (fun h => hc' (hq h))
  · exact .sleep u c hu ht' ho (fun h => hc' (hq h))

/-- The peer has dealt with an old proposal. -/
theorem Noise.drop_old {q : Prop} {x : EP} {a u cu : Nat} {tr : List Msg}
    (h : Noise q x (.aliceToBob a u cu :: tr)) (hu : u < x.latest) : Noise q x tr := by
  obtain ⟨hdc, hhi, hlo, hst⟩ := h
  refine ⟨hdc, hhi, hlo, ?_⟩
  rcases hst with ⟨ht', ho, hc'⟩ | ⟨a, pre, ht', htr, ho, hc', hd', hL'⟩ | ⟨c, ht', ho, hd', hL'⟩ |
    ⟨c, ht', ho, hc', hd', hL'⟩ | ⟨c, ht', ho, hc', hd', hL'⟩ | ⟨u, c, hu, ht', ho, hc'⟩ | ⟨u, c, hu, ht', ho, hc'⟩ |
    ⟨u, c, hu, ht', ho, hc'⟩ | ⟨u, c, hu, ht', ho, hc'⟩
  · exact .rest ht' ho.tail hc'
  · cases pre with
    | nil => injection htr with e _; injection e with _ e _; omega
    | cons m pre => injection htr with _ e; exact .sent a pre ht' e ho.tail hc' hd' hL'
  · exact .fresh8 c ht' ho.tail hd' hL'
  · exact .fresh11 c ht' ho.tail hc' hd' hL'
  · exact .fresh15 c ht' ho.tail hc' hd' hL'
  · exact .stale8 u c hu ht' ho.tail hc'
  · exact .stale11 u c hu ht' ho.tail hc'
  · exact .stale15 u c hu ht' ho.tail hc'
  · exact .sleep u c hu ht' ho.tail hc'

/-- The peer has dealt with any proposal, having one itself. -/
theorem Noise.drop {x : EP} {m : Msg} {tr : List Msg} (h : Noise False x (m :: tr)) : Noise False x tr := by
  obtain ⟨hdc, hhi, hlo, hst⟩ := h
  refine ⟨hdc, hhi, hlo, ?_⟩
  rcases hst with ⟨ht', ho, hc'⟩ | ⟨a, pre, ht', htr, ho, hc', hd', hL'⟩ | ⟨c, ht', ho, hd', hL'⟩ |
    ⟨c, ht', ho, hc', hd', hL'⟩ | ⟨c, ht', ho, hc', hd', hL'⟩ | ⟨u, c, hu, ht', ho, hc'⟩ | ⟨u, c, hu, ht', ho, hc'⟩ |
    ⟨u, c, hu, ht', ho, hc'⟩ | ⟨u, c, hu, ht', ho, hc'⟩
  · exact .rest ht' ho.tail hc'
  · cases pre with
    | nil =>
      injection htr with _ e
      exact .rest ht' (by rw [e]; exact Old.nil _) (fun h => h.elim)
    | cons m pre => injection htr with _ e; exact .sent a pre ht' e ho.tail hc' hd' hL'
  · exact .fresh8 c ht' ho.tail hd' hL'
  · exact .fresh11 c ht' ho.tail hc' hd' hL'
  · exact .fresh15 c ht' ho.tail hc' hd' hL'
  · exact .stale8 u c hu ht' ho.tail hc'
  · exact .stale11 u c hu ht' ho.tail hc'
  · exact .stale15 u c hu ht' ho.tail hc'
  · exact .sleep u c hu ht' ho.tail hc'

/-- Every proposal under way is of the current version at the latest, and one of the current version is the last. -/
theorem Noise.head {q : Prop} {x : EP} {m : Msg} {tr : List Msg} (h : Noise q x (m :: tr)) :
    (∃ a u, m = .aliceToBob a u u ∧ u < x.latest) ∨
      (∃ a, m = .aliceToBob a x.latest x.latest ∧ tr = [] ∧ x.t = .idle ∧ x.cons (x.latest + 1) = some a ∧
        x.declared = x.latest + 1 ∧ ¬ Late x) := by
  have old : Old x.latest (m :: tr) → ∃ a u, m = .aliceToBob a u u ∧ u < x.latest := fun h => h m (List.mem_cons_self ..)
  rcases h.st with ⟨ht', ho, hc'⟩ | ⟨a, pre, ht', htr, ho, hc', hd', hL'⟩ | ⟨c, ht', ho, hd', hL'⟩ |
    ⟨c, ht', ho, hc', hd', hL'⟩ | ⟨c, ht', ho, hc', hd', hL'⟩ | ⟨u, c, hu, ht', ho, hc'⟩ | ⟨u, c, hu, ht', ho, hc'⟩ |
    ⟨u, c, hu, ht', ho, hc'⟩ | ⟨u, c, hu, ht', ho, hc'⟩
  · exact Or.inl (old ho)
  · cases pre with
    | nil => injection htr with e e'; exact Or.inr ⟨a, e, e', ht', hc', hd', hL'⟩
    | cons m' pre =>
      injection htr with e e'
      subst e
      exact Or.inl (ho m (List.mem_cons_self ..))
  all_goals exact Or.inl (old ho)

/-- Every message under way is a proposal. -/
theorem Noise.mem {q : Prop} {x : EP} {m : Msg} {tr : List Msg} (h : Noise q x tr) (hm : m ∈ tr) :
    ∃ a u, m = .aliceToBob a u u ∧ u ≤ x.latest := by
  have old : Old x.latest tr → ∃ a u, m = .aliceToBob a u u ∧ u ≤ x.latest := fun h => by
    obtain ⟨a, u, e, hu⟩ := h m hm
    exact ⟨a, u, e, by omega⟩
  rcases h.st with ⟨ht', ho, hc'⟩ | ⟨a, pre, ht', htr, ho, hc', hd', hL'⟩ | ⟨c, ht', ho, hd', hL'⟩ |
    ⟨c, ht', ho, hc', hd', hL'⟩ | ⟨c, ht', ho, hc', hd', hL'⟩ | ⟨u, c, hu, ht', ho, hc'⟩ | ⟨u, c, hu, ht', ho, hc'⟩ |
    ⟨u, c, hu, ht', ho, hc'⟩ | ⟨u, c, hu, ht', ho, hc'⟩
  · exact old ho
  · rw [htr] at hm
    rcases List.mem_append.mp hm with hm | hm
    · obtain ⟨a, u, e, hu⟩ := ho m hm
      exact ⟨a, u, e, by omega⟩
    · rw [List.mem_singleton.mp hm]; exact ⟨a, _, rfl, Nat.le_refl _⟩
  all_goals exact old ho

/-- The loser moves on to the next version. -/
theorem noise_bump {q : Prop} {x x' : EP} {tr : List Msg} (h : Noise q x tr) (hl : x'.latest = x.latest + 1)
    (hd : x'.declared = x.latest + 1) (hc : x'.cons = del x.cons (x.latest + 2)) (ht : x'.t = x.t) (hb : x'.b ≠ .recv)
    (hx : ∀ l, x.t ≠ .check l) : Noise True x' tr ∧ Old (x.latest + 1) tr ∧ pending x' ≤ budget x ∧ budget x' ≤ 2 := by
  have hall : Old (x.latest + 1) tr := by
    intro m hm
    obtain ⟨a, u, e, hu⟩ := h.mem hm
    exact ⟨a, u, e, by omega⟩
  obtain ⟨hdc, hhi, _, hst⟩ := h
  have hcl : Clean x' := ⟨by rw [hd, hl], by rw [hc, hl]; exact del_same _ _, fun h => absurd h hb⟩
  have hall' : Old x'.latest tr := by rw [hl]; exact hall
  refine ⟨⟨by rw [hl, hd]; omega, ?_, fun _ h => absurd h hb, ?_⟩, hall, ?_, ?_⟩
  · intro k hk
    rw [hl] at hk
    rw [hc]; exact del_none _ (hhi k (by omega))
  · rcases hst with ⟨ht', ho, hc'⟩ | ⟨a, pre, ht', htr, ho, hc', hd', hL'⟩ | ⟨c, ht', ho, hd', hL'⟩ |
      ⟨c, ht', ho, hc', hd', hL'⟩ | ⟨c, ht', ho, hc', hd', hL'⟩ | ⟨u, c, hu, ht', ho, hc'⟩ |
      ⟨u, c, hu, ht', ho, hc'⟩ | ⟨u, c, hu, ht', ho, hc'⟩ | ⟨u, c, hu, ht', ho, hc'⟩
    · exact .rest (ht.trans ht') hall' (fun _ => hcl)
    · exact .rest (ht.trans ht') hall' (fun _ => hcl)
    · exact .stale8 _ c (by rw [hl]; omega) (ht.trans ht') hall' (fun _ => hcl)
    · exact absurd ht' (hx _)
    · exact .stale15 _ c (by rw [hl]; omega) (ht.trans ht') hall' (fun _ => hcl)
    · exact .stale8 u c (by rw [hl]; omega) (ht.trans ht') hall' (fun _ => hcl)
    · exact absurd ht' (hx _)
    · exact .stale15 u c (by rw [hl]; omega) (ht.trans ht') hall' (fun _ => hcl)
    · exact .sleep u c (by rw [hl]; omega) (ht.trans ht') hall' (fun _ => hcl)
  · unfold pending budget
    rw [ht]
    cases x.t <;> simp
    split <;> omega
  · unfold budget
    cases x'.t <;> simp <;> split <;> omega

/-- The loser closes the round. -/
theorem noise_retain {q : Prop} {x x' : EP} {tr : List Msg} (h : Noise q x tr) (hL : Late x)
    (hl : x'.latest = x.latest) (hd : x'.declared = x.declared)
    (hc : x'.cons = fun j => if x.latest < j then x.cons j else none) (ht : x'.t = x.t) (hg : x'.tog = false)
    (hx : ∀ l, x.t ≠ .check l) : Noise q x' tr ∧ budget x' = budget x := by
  obtain ⟨hdc, hhi, _, hst⟩ := h
  have hcl : Clean x → Clean x' := fun h =>
    ⟨by rw [hd, hl]; exact h.1, by rw [hc, hl]; simpa using h.2.1, fun _ => hg⟩
  refine ⟨⟨by rw [hl, hd]; exact hdc, ?_, ?_, ?_⟩, ?_⟩
  · intro k hk
    rw [hl] at hk
    rw [hc]; simp [show x.latest < k by omega, hhi k hk]
  · intro _ _ k hk hne
    rw [hl] at hk
    rw [hc] at hne
    simp [show ¬ x.latest < k by omega] at hne
  · rcases hst with ⟨ht', ho, hc'⟩ | ⟨a, pre, ht', htr, ho, hc', hd', hL'⟩ | ⟨c, ht', ho, hd', hL'⟩ |
      ⟨c, ht', ho, hc', hd', hL'⟩ | ⟨c, ht', ho, hc', hd', hL'⟩ | ⟨u, c, hu, ht', ho, hc'⟩ |
      ⟨u, c, hu, ht', ho, hc'⟩ | ⟨u, c, hu, ht', ho, hc'⟩ | ⟨u, c, hu, ht', ho, hc'⟩
    · exact .rest (ht.trans ht') (by rw [hl]; exact ho) (fun h => hcl (hc' h))
    · exact absurd hL hL'
    · exact absurd hL hL'
    · exact absurd hL hL'
    · exact absurd hL hL'
    · exact .stale8 u c (by rw [hl]; exact hu) (ht.trans ht') (by rw [hl]; exact ho) (fun h => hcl (hc' h))
    · exact absurd ht' (hx _)
    · exact .stale15 u c (by rw [hl]; exact hu) (ht.trans ht') (by rw [hl]; exact ho) (fun h => hcl (hc' h))
    · exact .sleep u c (by rw [hl]; exact hu) (ht.trans ht') (by rw [hl]; exact ho) (fun h => hcl (hc' h))
  · unfold budget; rw [ht, hd, hl]

/-- After sending its last message the loser is still late. -/
theorem noise_late {q : Prop} {x x' : EP} {tr : List Msg} (h : Noise q x tr) (hL : Late x)
    (hl : x'.latest = x.latest) (hd : x'.declared = x.declared) (hc : x'.cons = x.cons) (ht : x'.t = x.t)
    (hb : x'.b = .retain) : Noise q x' tr ∧ budget x' = budget x := by
  obtain ⟨hdc, hhi, _, hst⟩ := h
  have hcl : Clean x → Clean x' := fun h =>
    ⟨by rw [hd, hl]; exact h.1, by rw [hc, hl]; exact h.2.1, (fun h => by rw [hb] at h; cases h)⟩
  refine ⟨⟨by rw [hl, hd]; exact hdc, by rw [hl, hc]; exact hhi, (fun _ h => by rw [hb] at h; cases h), ?_⟩, ?_⟩
  · rcases hst with ⟨ht', ho, hc'⟩ | ⟨a, pre, ht', htr, ho, hc', hd', hL'⟩ | ⟨c, ht', ho, hd', hL'⟩ |
      ⟨c, ht', ho, hc', hd', hL'⟩ | ⟨c, ht', ho, hc', hd', hL'⟩ | ⟨u, c, hu, ht', ho, hc'⟩ |
      ⟨u, c, hu, ht', ho, hc'⟩ | ⟨u, c, hu, ht', ho, hc'⟩ | ⟨u, c, hu, ht', ho, hc'⟩
    · exact .rest (ht.trans ht') (by rw [hl]; exact ho) (fun h => hcl (hc' h))
    · exact absurd hL hL'
    · exact absurd hL hL'
    · exact absurd hL hL'
    · exact absurd hL hL'
    · exact .stale8 u c (by rw [hl]; exact hu) (ht.trans ht') (by rw [hl]; exact ho) (fun h => hcl (hc' h))
    · exact .stale11 u c (by rw [hl]; exact hu) (ht.trans ht') (by rw [hl]; exact ho)
        (fun h => by rw [hc, hl]; exact hc' h)
    · exact .stale15 u c (by rw [hl]; exact hu) (ht.trans ht') (by rw [hl]; exact ho) (fun h => hcl (hc' h))
    · exact .sleep u c (by rw [hl]; exact hu) (ht.trans ht') (by rw [hl]; exact ho) (fun h => hcl (hc' h))
  · unfold budget; rw [ht, hd, hl]

end Verif.Rekey

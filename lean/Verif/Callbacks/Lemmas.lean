import Verif.Callbacks.Spec
/-!
# Lemmas on the map of the listeners
-/
namespace Verif.Callbacks

theorem takes_iff (k q : Key) :
    takes k q = true ↔ q.ticket = k.ticket ∧ (k.cid = none ∨ q.cid = k.cid) := by
  unfold takes
  cases h : k.cid with
  | none => simp
  | some c =>
      cases h2 : q.cid with
      | none => simp
      | some d =>
          simp only [Bool.and_eq_true, beq_iff_eq, reduceCtorEq, false_or, Option.some.injEq]
          grind

theorem upd_same {α : Type} (f : Nat → α) (i : Nat) (v : α) : upd f i v i = v := by simp [upd]
theorem upd_ne {α : Type} (f : Nat → α) {i j : Nat} (v : α) (h : j ≠ i) : upd f i v j = f j := by
  simp [upd, h]

theorem mem_eraseKey {m : List (Key × Nat)} {k : Key} {e : Key × Nat} :
    e ∈ eraseKey m k ↔ e ∈ m ∧ e.1 ≠ k := by
  simp [eraseKey]

theorem search_some {m : List (Key × Nat)} {q : Key} {c i : Nat} (h : search m q c = some i) :
    ∃ k, (k, i) ∈ m ∧ takes k q = true := by
  unfold search at h
  simp only [Option.map_eq_some_iff] at h
  obtain ⟨e, he, rfl⟩ := h
  have := List.mem_of_getElem? he
  rw [List.mem_filter] at this
  exact ⟨e.1, this.1, this.2⟩

theorem search_none {m : List (Key × Nat)} {q : Key} {c : Nat} (h : search m q c = none)
    {e : Key × Nat} (he : e ∈ m) : takes e.1 q = false := by
  unfold search at h
  simp only [Option.map_eq_none_iff, List.getElem?_eq_none_iff] at h
  rcases Nat.eq_zero_or_pos (m.filter (fun e => takes e.1 q)).length with h0 | h0
  · rw [List.length_eq_zero_iff, List.filter_eq_nil_iff] at h0
    simpa using h0 e he
  · exact absurd (Nat.mod_lt c h0) (by omega)

/-- Every listener is live, and tickets of subscriptions are told apart. -/
structure Good (s : St) (as : List Act) : Prop where
  live : ∀ k i, (k, i) ∈ s.map → s.rx i = true ∧ s.sub i = some k
  old : ∀ i k, s.sub i = some k → i < s.next ∧ k.ticket ∉ tickets as
  apart : ∀ i j k q, s.sub i = some k → s.sub j = some q → k.ticket = q.ticket → i = j
  fresh : (tickets as).Nodup
  empty : ∀ i, s.next ≤ i → s.log i = []

theorem good_init (as : List Act) (h : (tickets as).Nodup) : Good St.init as :=
  ⟨by simp [St.init], by simp [St.init], by simp [St.init], h, by simp [St.init]⟩

theorem not_present {s : St} {k : Key} {as : List Act} (h : Good s (.subscribe k :: as)) :
    s.map.any (fun e => e.1 == k) = false := by
  rw [Bool.eq_false_iff]
  intro hc
  rw [List.any_eq_true] at hc
  obtain ⟨⟨q, i⟩, he, hq⟩ := hc
  simp only [beq_iff_eq] at hq
  subst hq
  have := h.old i q (h.live q i he).2
  simp [tickets] at this

theorem good_step {s : St} {a : Act} {as : List Act} (h : Good s (a :: as)) :
    Good (step s a) as := by
  obtain ⟨hl, ho, ha, hf, he⟩ := h
  cases a with
  | subscribe k =>
      have hp := not_present (s := s) (k := k) (as := as) ⟨hl, ho, ha, hf, he⟩
      simp only [tickets, List.nodup_cons] at hf
      simp only [tickets, List.mem_cons, not_or] at ho
      refine ⟨?_, ?_, ?_, hf.2, ?_⟩
      · intro q i hm
        simp only [step, register, List.mem_cons, mem_eraseKey, hp] at hm ⊢
        rcases hm with hm | ⟨hm, _⟩
        · obtain ⟨rfl, rfl⟩ := Prod.mk.inj hm
          simp [upd]
        · have h1 := hl q i hm
          have h2 := ho i q h1.2
          rw [upd_ne _ _ (by omega), upd_ne _ _ (by omega)]
          exact h1
      · intro i q hs
        simp only [step, register, hp] at hs ⊢
        by_cases hi : i = s.next
        · subst hi
          simp only [upd, if_pos, Bool.false_eq_true, if_false, Option.some.injEq] at hs
          subst hs
          exact ⟨by omega, hf.1⟩
        · rw [upd_ne _ _ hi] at hs
          have := ho i q hs
          exact ⟨by omega, this.2.2⟩
      · intro i j q w hi hj ht
        simp only [step, register, hp] at hi hj
        grind [upd]
      · intro i hi
        simp only [step, register] at hi ⊢
        exact he i (by omega)
  | drop j =>
      simp only [step, dropSub, tickets] at ho hf ⊢
      split
      · exact ⟨hl, ho, ha, hf, he⟩
      · rename_i k hk
        refine ⟨?_, ?_, ?_, hf, ?_⟩
        · intro q i hm
          simp only [removeListener, mem_eraseKey] at hm
          have h1 := hl q i hm.1
          have : i ≠ j := by
            rintro rfl
            rw [hk] at h1
            exact hm.2 (Option.some.inj h1.2).symm
          simp only [upd_ne _ _ this]
          exact h1
        · intro i q hs
          simp only [removeListener] at hs ⊢
          grind [upd]
        · intro i i' q w hi hj ht
          simp only at hi hj
          grind [upd]
        · exact he
  | unlisten k =>
      refine ⟨?_, ho, ha, hf, he⟩
      intro q i hm
      simp only [step, removeListener, mem_eraseKey] at hm ⊢
      exact hl q i hm.1
  | result r c =>
      simp only [tickets] at ho hf
      simp only [step, deliver]
      split
      · exact ⟨hl, ho, ha, hf, he⟩
      · split
        · exact ⟨hl, ho, ha, hf, he⟩
        · rename_i q _ i hi
          split
          · refine ⟨hl, ho, ha, hf, ?_⟩
            intro j hj
            obtain ⟨k, hm, _⟩ := search_some hi
            have := (ho i k (hl k i hm).2).1
            simp only at hj ⊢
            rw [upd_ne _ _ (by omega)]
            exact he j hj
          · exact ⟨hl, ho, ha, hf, he⟩
  | poll i =>
      simp only [tickets] at ho hf
      simp only [step, poll]
      split
      · exact ⟨hl, ho, ha, hf, he⟩
      · exact ⟨hl, ho, ha, hf, he⟩

/-- The two ways in which a result is placed. -/
theorem deliver_cases (s : St) (r : NodeResult) (c : Nat) :
    (deliver s r c = { s with deflt := s.deflt ++ [r] }) ∨
    (∃ k i, (k, i) ∈ s.map ∧ Concerns k r ∧ s.rx i = true ∧
      deliver s r c = { s with log := upd s.log i (s.log i ++ [r]) }) := by
  unfold deliver
  cases hq : r.key with
  | none => exact .inl rfl
  | some q =>
      simp only
      cases hs : search s.map q c with
      | none => exact .inl rfl
      | some i =>
          simp only
          by_cases hr : s.rx i = true
          · obtain ⟨k, hm, ht⟩ := search_some hs
            rw [takes_iff] at ht
            exact .inr ⟨k, i, hm, ⟨q, hq, ht.1, ht.2⟩, hr, if_pos hr⟩
          · exact .inl (if_neg hr)

/-- With live listeners told apart by their tickets, a result goes to the listener it concerns. -/
theorem deliver_good {s : St} {as : List Act} (h : Good s as) (r : NodeResult) (c : Nat) (k : Key)
    (i : Nat) (hm : (k, i) ∈ s.map) (hc : Concerns k r) :
    deliver s r c = { s with log := upd s.log i (s.log i ++ [r]) } := by
  obtain ⟨q, hq, ht, hcid⟩ := hc
  have htk : takes k q = true := (takes_iff _ _).2 ⟨ht, hcid⟩
  unfold deliver
  rw [hq]
  simp only
  cases hs : search s.map q c with
  | none => have := search_none hs hm; simp [htk] at this
  | some j =>
      obtain ⟨k', hm', ht'⟩ := search_some hs
      rw [takes_iff] at ht'
      have hj := h.live k' j hm'
      have hi := h.live k i hm
      have : j = i := h.apart j i k' k hj.2 hi.2 (by omega)
      subst this
      simp only
      rw [if_pos hj.1]

theorem runFrom_cons (s : St) (a : Act) (as : List Act) :
    runFrom s (a :: as) = runFrom (step s a) as := rfl

theorem log_runFrom (as : List Act) : ∀ (s : St), Good s as →
    (∀ k i, (k, i) ∈ s.map → (runFrom s as).log i = s.log i ++ window i k as) ∧
    (∀ i, i < s.next → (∀ k, (k, i) ∉ s.map) → (runFrom s as).log i = s.log i) ∧
    (∀ i, s.next ≤ i → (runFrom s as).log i = streamOf i s.next as) := by
  induction as with
  | nil =>
      intro s h
      refine ⟨?_, ?_, ?_⟩
      · intro k i _; simp [runFrom, window]
      · intro i _ _; rfl
      · intro i hi; simp [runFrom, streamOf, h.empty i hi]
  | cons a as ih =>
      intro s h
      obtain ⟨i1, i2, i3⟩ := ih (step s a) (good_step h)
      simp only [runFrom_cons]
      cases a with
      | subscribe k =>
          have hp := not_present h
          have hmem : ∀ q i, (q, i) ∈ (step s (.subscribe k)).map ↔
              (q = k ∧ i = s.next) ∨ (q, i) ∈ s.map := by
            intro q i
            simp only [step, register, List.mem_cons, mem_eraseKey, Prod.mk.injEq]
            constructor
            · rintro (h1 | h1)
              · exact .inl h1
              · exact .inr h1.1
            · rintro (h1 | h1)
              · exact .inl h1
              · refine .inr ⟨h1, ?_⟩
                rintro rfl
                have := h.old i q (h.live q i h1).2
                simp [tickets] at this
          refine ⟨?_, ?_, ?_⟩
          · intro q i hm
            rw [i1 q i ((hmem q i).2 (.inr hm))]
            rfl
          · intro i hi hn
            rw [i2 i (by simp only [step, register]; omega) ?_]
            · rfl
            · intro q hq
              rcases (hmem q i).1 hq with h1 | h1
              · omega
              · exact hn q h1
          · intro i hi
            by_cases he : s.next = i
            · subst he
              rw [i1 k s.next ((hmem k s.next).2 (.inl ⟨rfl, rfl⟩))]
              simp only [streamOf, if_pos]
              have : (step s (.subscribe k)).log s.next = [] := h.empty s.next (Nat.le_refl _)
              rw [this, List.nil_append]
            · rw [i3 i (by simp only [step, register]; omega)]
              simp only [streamOf, he, if_false]
              rfl
      | drop j =>
          have hlog : (step s (.drop j)).log = s.log := by
            simp only [step, dropSub]; split <;> rfl
          have hnext : (step s (.drop j)).next = s.next := by
            simp only [step, dropSub]; split <;> rfl
          refine ⟨?_, ?_, ?_⟩
          · intro k i hm
            have hs := h.live k i hm
            have hi := h.old i k hs.2
            by_cases hj : j = i
            · subst hj
              simp only [window, if_pos, List.append_nil]
              rw [i2 j (by rw [hnext]; exact hi.1) ?_, hlog]
              intro q hq
              have h1 := (good_step h).live q j hq
              have h2 := h1.2
              simp only [step, dropSub, hs.2] at h2
              simp [upd] at h2
            · simp only [window, hj, if_false]
              rw [i1 k i ?_, hlog]
              simp only [step, dropSub]
              split
              · exact hm
              · rename_i q hq
                simp only [removeListener, mem_eraseKey]
                refine ⟨hm, ?_⟩
                rintro rfl
                exact hj (h.apart j i _ _ hq hs.2 rfl)
          · intro i hi hn
            rw [i2 i (by rw [hnext]; exact hi) ?_, hlog]
            intro k hk
            simp only [step, dropSub] at hk
            split at hk
            · exact hn k hk
            · simp only [removeListener, mem_eraseKey] at hk
              exact hn k hk.1
          · intro i hi
            rw [i3 i (by rw [hnext]; exact hi), hnext]
            rfl
      | unlisten q =>
          refine ⟨?_, ?_, ?_⟩
          · intro k i hm
            have hs := h.live k i hm
            have hi := h.old i k hs.2
            by_cases hq : q = k
            · subst hq
              simp only [window, if_pos, List.append_nil]
              rw [i2 i hi.1 ?_]
              · rfl
              · intro w hw
                simp only [step, removeListener, mem_eraseKey] at hw
                have := (h.live w i hw.1).2
                rw [hs.2] at this
                exact hw.2 (Option.some.inj this).symm
            · simp only [window, hq, if_false]
              rw [i1 k i (by
                simp only [step, removeListener, mem_eraseKey]
                exact ⟨hm, fun hc => hq hc.symm⟩)]
              rfl
          · intro i hi hn
            rw [i2 i hi ?_]
            · rfl
            · intro k hk
              simp only [step, removeListener, mem_eraseKey] at hk
              exact hn k hk.1
          · intro i hi
            rw [i3 i hi]
            rfl
      | result r c =>
          have hmap : (step s (.result r c)).map = s.map := by
            rcases deliver_cases s r c with h1 | ⟨k, i, _, _, _, h1⟩ <;>
              simp only [step, h1]
          have hnext : (step s (.result r c)).next = s.next := by
            rcases deliver_cases s r c with h1 | ⟨k, i, _, _, _, h1⟩ <;>
              simp only [step, h1]
          have hoth : ∀ i, (∀ k, (k, i) ∈ s.map → ¬ Concerns k r) →
              (step s (.result r c)).log i = s.log i := by
            intro i hn
            rcases deliver_cases s r c with h1 | ⟨k, j, hm, hk, _, h1⟩
            · simp only [step, h1]
            · simp only [step, h1]
              by_cases hj : i = j
              · subst hj; exact absurd hk (hn k hm)
              · rw [upd_ne _ _ hj]
          refine ⟨?_, ?_, ?_⟩
          · intro k i hm
            rw [i1 k i (by rw [hmap]; exact hm)]
            by_cases hk : Concerns k r
            · simp only [window, hk, if_true]
              have : (step s (.result r c)).log i = s.log i ++ [r] := by
                simp only [step, deliver_good h r c k i hm hk, upd_same]
              rw [this, List.append_assoc]
              rfl
            · simp only [window, hk, if_false]
              rw [hoth i ?_]
              intro q hq
              have h1 := (h.live q i hq).2
              rw [(h.live k i hm).2] at h1
              rw [← Option.some.inj h1]
              exact hk
          · intro i hi hn
            rw [i2 i (by rw [hnext]; exact hi) (by rw [hmap]; exact hn)]
            exact hoth i (fun k hk => absurd hk (hn k))
          · intro i hi
            rw [i3 i (by rw [hnext]; exact hi), hnext]
            rfl
      | poll j =>
          have hs : ∃ v, step s (.poll j) = { s with seen := v } := by
            simp only [step, poll]
            split
            · exact ⟨_, rfl⟩
            · exact ⟨s.seen, rfl⟩
          obtain ⟨v, hv⟩ := hs
          rw [hv] at i1 i2 i3 ⊢
          exact ⟨i1, i2, i3⟩

/-! ## Without any assumption on tickets -/

/-- Facts that hold in every run. -/
structure Sane (s : St) : Prop where
  old : ∀ k i, (k, i) ∈ s.map → i < s.next
  oldSub : ∀ i k, s.sub i = some k → i < s.next
  empty : ∀ i, s.next ≤ i → s.log i = [] ∧ s.seen i = []
  pre : ∀ i, s.seen i <+: s.log i

theorem sane_init : Sane St.init :=
  ⟨by simp [St.init], by simp [St.init], by simp [St.init], by simp [St.init]⟩

theorem prefix_snoc_get {l m : List NodeResult} {r : NodeResult} (h : l <+: m)
    (hr : m[l.length]? = some r) : l ++ [r] <+: m := by
  obtain ⟨t, rfl⟩ := h
  rw [List.getElem?_append_right (Nat.le_refl _), Nat.sub_self] at hr
  cases t with
  | nil => simp at hr
  | cons x t =>
      simp at hr
      subst hr
      exact ⟨t, by simp⟩

theorem sane_step {s : St} (a : Act) (h : Sane s) : Sane (step s a) := by
  obtain ⟨ho, hs, he, hp⟩ := h
  cases a with
  | subscribe k =>
      refine ⟨?_, ?_, ?_, hp⟩
      · intro q i hm
        simp only [step, register, List.mem_cons, mem_eraseKey, Prod.mk.injEq] at hm ⊢
        rcases hm with hm | hm
        · omega
        · have := ho q i hm.1; omega
      · intro i q hq
        simp only [step, register] at hq ⊢
        by_cases hi : i = s.next
        · omega
        · rw [upd_ne _ _ hi] at hq
          have := hs i q hq; omega
      · intro i hi
        simp only [step, register] at hi ⊢
        exact he i (by omega)
  | drop j =>
      simp only [step, dropSub]
      split
      · exact ⟨ho, hs, he, hp⟩
      · refine ⟨?_, ?_, he, hp⟩
        · intro q i hm
          simp only [removeListener, mem_eraseKey] at hm ⊢
          exact ho q i hm.1
        · intro i q hq
          simp only [removeListener] at hq ⊢
          by_cases hi : i = j
          · subst hi; simp [upd] at hq
          · rw [upd_ne _ _ hi] at hq
            exact hs i q hq
  | unlisten k =>
      refine ⟨?_, hs, he, hp⟩
      intro q i hm
      simp only [step, removeListener, mem_eraseKey] at hm ⊢
      exact ho q i hm.1
  | result r c =>
      rcases deliver_cases s r c with h1 | ⟨k, i, hm, _, _, h1⟩
      · simp only [step, h1]; exact ⟨ho, hs, he, hp⟩
      · simp only [step, h1]
        refine ⟨ho, hs, ?_, ?_⟩
        · intro j hj
          have := ho k i hm
          simp only at hj ⊢
          rw [upd_ne _ _ (by omega)]
          exact he j hj
        · intro j
          by_cases hj : j = i
          · subst hj
            simp only [upd_same]
            exact List.IsPrefix.trans (hp j) (List.prefix_append _ _)
          · simp only [upd_ne _ _ hj]
            exact hp j
  | poll j =>
      simp only [step, poll]
      split
      · rename_i r hr
        refine ⟨ho, hs, ?_, ?_⟩
        · intro i hi
          simp only at hi ⊢
          have := he i hi
          by_cases hj : i = j
          · subst hj
            rw [this.1, this.2] at hr
            simp at hr
          · rw [upd_ne _ _ hj]; exact this
        · intro i
          by_cases hj : i = j
          · subst hj
            simp only [upd_same]
            exact prefix_snoc_get (hp i) hr
          · simp only [upd_ne _ _ hj]
            exact hp i
      · exact ⟨ho, hs, he, hp⟩

theorem sane_runFrom (as : List Act) : ∀ {s : St}, Sane s → Sane (runFrom s as) := by
  induction as with
  | nil => intro s h; exact h
  | cons a as ih => intro s h; exact ih (sane_step a h)

theorem sane_run (as : List Act) : Sane (run as) := sane_runFrom as sane_init

theorem sum_map_upd (f : Nat → Nat) (i v : Nat) : ∀ n, i < n →
    ((List.range n).map (upd f i (f i + v))).sum = ((List.range n).map f).sum + v := by
  intro n
  induction n with
  | zero => intro h; omega
  | succ n ih =>
      intro h
      rw [List.range_succ, List.map_append, List.map_append, List.sum_append, List.sum_append]
      by_cases hi : i = n
      · subst hi
        have : (List.range i).map (upd f i (f i + v)) = (List.range i).map f := by
          apply List.map_congr_left
          intro j hj
          rw [List.mem_range] at hj
          exact upd_ne _ _ (by omega)
        rw [this]
        simp [upd]
        omega
      · rw [ih (by omega)]
        simp [upd, Ne.symm hi]
        omega

theorem placed_step {s : St} (h : Sane s) (a : Act) (r : NodeResult) :
    placed (step s a) r = placed s r + (arrived [a]).count r := by
  cases a with
  | subscribe k =>
      simp only [step, placed, register, arrived, List.count_nil, Nat.add_zero]
      rw [List.range_succ, List.map_append, List.sum_append]
      simp [(h.empty s.next (Nat.le_refl _)).1]
  | drop j =>
      simp only [step, dropSub, arrived, List.count_nil, Nat.add_zero]
      split <;> rfl
  | unlisten k => rfl
  | result q c =>
      rcases deliver_cases s q c with h1 | ⟨k, i, hm, _, _, h1⟩
      · simp only [step, h1, placed, arrived, List.count_append]
        omega
      · simp only [step, h1, placed, arrived]
        have := sum_map_upd (fun j => (s.log j).count r) i ([q].count r) s.next (h.old k i hm)
        have h2 : (fun j => (upd s.log i (s.log i ++ [q]) j).count r) =
            upd (fun j => (s.log j).count r) i ((s.log i).count r + [q].count r) := by
          funext j
          by_cases hj : j = i
          · subst hj; simp only [upd_same, List.count_append]
          · simp only [upd_ne _ _ hj]
        rw [h2, this]
        omega
  | poll j =>
      simp only [step, poll, arrived, List.count_nil, Nat.add_zero]
      split <;> rfl

theorem arrived_cons (a : Act) (as : List Act) : arrived (a :: as) = arrived [a] ++ arrived as := by
  cases a <;> rfl

theorem placed_runFrom (r : NodeResult) (as : List Act) : ∀ {s : St}, Sane s →
    placed (runFrom s as) r = placed s r + (arrived as).count r := by
  induction as with
  | nil => intro s _; simp [runFrom, arrived]
  | cons a as ih =>
      intro s h
      rw [runFrom_cons, ih (sane_step a h), placed_step h, arrived_cons a as, List.count_append]
      omega

/-- Entries of the map, and everything in a channel, belong to the key of the subscription. -/
structure Keyed (s : St) (n : Nat) (K : Nat → Option Key) : Prop where
  entries : ∀ k i, (k, i) ∈ s.map → K i = some k
  subs : ∀ i k, s.sub i = some k → K i = some k
  logs : ∀ i r, r ∈ s.log i → ∃ k, K i = some k ∧ Concerns k r
  next : s.next = n

theorem keyed_runFrom (as : List Act) : ∀ (s : St) (K : Nat → Option Key), Keyed s s.next K →
    (∀ i, s.next ≤ i → K i = keyOf i s.next as) → ∀ i r, r ∈ (runFrom s as).log i →
    ∃ k, K i = some k ∧ Concerns k r := by
  induction as with
  | nil => intro s K h _ i r hr; exact h.logs i r hr
  | cons a as ih =>
      intro s K h hK
      rw [runFrom_cons]
      obtain ⟨he, hs, hl, hn⟩ := h
      cases a with
      | subscribe k =>
          have hk : K s.next = some k := by
            rw [hK s.next (Nat.le_refl _)]; simp [keyOf]
          apply ih (step s (.subscribe k)) K
          · refine ⟨?_, ?_, hl, rfl⟩
            · intro q i hm
              simp only [step, register, List.mem_cons, mem_eraseKey, Prod.mk.injEq] at hm
              rcases hm with ⟨rfl, rfl⟩ | hm
              · exact hk
              · exact he q i hm.1
            · intro i q hq
              simp only [step, register] at hq
              by_cases hi : i = s.next
              · subst hi
                simp only [upd_same] at hq
                split at hq
                · simp at hq
                · rw [← hq]; exact hk
              · rw [upd_ne _ _ hi] at hq
                exact hs i q hq
          · intro i hi
            simp only [step, register] at hi ⊢
            rw [hK i (by omega)]
            simp only [keyOf]
            rw [if_neg (by omega)]
      | drop j =>
          have hnext : (step s (.drop j)).next = s.next := by
            simp only [step, dropSub]; split <;> rfl
          apply ih (step s (.drop j)) K
          · simp only [step, dropSub]
            split
            · exact ⟨he, hs, hl, rfl⟩
            · refine ⟨?_, ?_, hl, rfl⟩
              · intro q i hm
                simp only [removeListener, mem_eraseKey] at hm
                exact he q i hm.1
              · intro i q hq
                simp only at hq
                by_cases hi : i = j
                · subst hi; simp [upd] at hq
                · rw [upd_ne _ _ hi] at hq
                  exact hs i q hq
          · intro i hi
            rw [hnext] at hi ⊢
            exact hK i hi
      | unlisten q =>
          apply ih (step s (.unlisten q)) K
          · refine ⟨?_, hs, hl, rfl⟩
            intro w i hm
            simp only [step, removeListener, mem_eraseKey] at hm
            exact he w i hm.1
          · exact hK
      | result q c =>
          rcases deliver_cases s q c with h1 | ⟨k, i, hm, hc, _, h1⟩
          · apply ih
            · simp only [step, h1]; exact ⟨he, hs, hl, rfl⟩
            · simp only [step, h1]; exact hK
          · apply ih
            · simp only [step, h1]
              refine ⟨he, hs, ?_, rfl⟩
              intro j r hr
              by_cases hj : j = i
              · subst hj
                simp only [upd_same, List.mem_append, List.mem_singleton] at hr
                rcases hr with hr | rfl
                · exact hl j r hr
                · exact ⟨k, he k j hm, hc⟩
              · simp only [upd_ne _ _ hj] at hr
                exact hl j r hr
            · simp only [step, h1]; exact hK
      | poll j =>
          have hv : ∃ v, step s (.poll j) = { s with seen := v } := by
            simp only [step, poll]
            split
            · exact ⟨_, rfl⟩
            · exact ⟨s.seen, rfl⟩
          obtain ⟨v, hv⟩ := hv
          rw [hv]
          exact ih { s with seen := v } K ⟨he, hs, hl, rfl⟩ hK

theorem log_concerns {as : List Act} {i : Nat} {r : NodeResult} (h : r ∈ (run as).log i) :
    ∃ k, keyOf i 0 as = some k ∧ Concerns k r :=
  keyed_runFrom as St.init (fun i => keyOf i 0 as)
    ⟨by simp [St.init], by simp [St.init], by simp [St.init], rfl⟩ (fun _ _ => rfl) i r h

theorem drive_wait {c : Call} {l : List NodeResult} :
    c.drive l = .wait ↔ ∀ r ∈ l, c.onResult r = .wait := by
  induction l with
  | nil => simp [Call.drive]
  | cons r l ih =>
      simp only [Call.drive, List.mem_cons, forall_eq_or_imp]
      cases h : c.onResult r with
      | wait => simp [ih]
      | ok => simp
      | err => simp

theorem le_sum_of_mem {x : Nat} : ∀ {l : List Nat}, x ∈ l → x ≤ l.sum := by
  intro l
  induction l with
  | nil => intro h; simp at h
  | cons y l ih =>
      intro h
      rw [List.sum_cons]
      rcases List.mem_cons.1 h with h | h
      · omega
      · have := ih h; omega

theorem not_checks {call : Call} (h : call.checksErrors = false) :
    (∃ c, call = .createGroup c) ∨ (∃ c, call = .rekey c) ∨ call = .listSessions := by
  cases call <;> simp_all [Call.checksErrors]

theorem ok_not_err {call : Call} {r : NodeResult} (h : call.onResult r = .ok) : r.isErr = false := by
  cases hr : r.isErr with
  | false => rfl
  | true =>
      cases hc : call.checksErrors with
      | true => simp [Call.onResult, hr, hc] at h
      | false =>
          simp only [Call.onResult, hc, Bool.false_and, Bool.false_eq_true, if_false] at h
          rcases not_checks hc with ⟨c, rfl⟩ | ⟨c, rfl⟩ | rfl <;>
            cases r <;> simp [Call.body, NodeResult.isErr] at h hr

/-! ## Pieces of a run -/

theorem run_append (as bs : List Act) : run (as ++ bs) = runFrom (run as) bs := by
  simp [run, runFrom, List.foldl_append]

/-- The number of subscriptions made in a run. -/
theorem next_runFrom (as : List Act) : ∀ s : St, (runFrom s as).next = s.next + (tickets as).length := by
  induction as with
  | nil => intro s; rfl
  | cons a as ih =>
      intro s
      rw [runFrom_cons, ih]
      cases a with
      | subscribe k => simp only [step, register, tickets, List.length_cons]; omega
      | drop j =>
          simp only [step, dropSub, tickets]
          split <;> rfl
      | unlisten k => rfl
      | result r c =>
          simp only [tickets]
          rcases deliver_cases s r c with h1 | ⟨k, i, _, _, _, h1⟩ <;> simp only [step, h1]
      | poll j =>
          simp only [step, poll, tickets]
          split <;> rfl

theorem next_run (as : List Act) : (run as).next = (tickets as).length := by
  rw [run, next_runFrom]; simp [St.init]

theorem keyed_run_aux (as : List Act) : ∀ (s : St) (K : Nat → Option Key),
    (∀ k i, (k, i) ∈ s.map → K i = some k) →
    (∀ i, s.next ≤ i → K i = keyOf i s.next as) →
    ∀ k i, (k, i) ∈ (runFrom s as).map → K i = some k := by
  induction as with
  | nil => intro s K h _; exact h
  | cons a as ih =>
      intro s K he hK
      rw [runFrom_cons]
      cases a with
      | subscribe k =>
          apply ih (step s (.subscribe k)) K
          · intro q i hm
            simp only [step, register, List.mem_cons, mem_eraseKey, Prod.mk.injEq] at hm
            rcases hm with ⟨rfl, rfl⟩ | hm
            · rw [hK s.next (Nat.le_refl _)]; simp [keyOf]
            · exact he q i hm.1
          · intro i hi
            simp only [step, register] at hi ⊢
            rw [hK i (by omega)]
            simp only [keyOf]
            rw [if_neg (by omega)]
      | drop j =>
          have hnext : (step s (.drop j)).next = s.next := by
            simp only [step, dropSub]; split <;> rfl
          apply ih (step s (.drop j)) K
          · simp only [step, dropSub]
            split
            · exact he
            · intro q i hm
              simp only [removeListener, mem_eraseKey] at hm
              exact he q i hm.1
          · intro i hi
            rw [hnext] at hi ⊢
            exact hK i hi
      | unlisten q =>
          apply ih (step s (.unlisten q)) K
          · intro w i hm
            simp only [step, removeListener, mem_eraseKey] at hm
            exact he w i hm.1
          · exact hK
      | result q c =>
          rcases deliver_cases s q c with h1 | ⟨k, i, _, _, _, h1⟩
          · apply ih
            · simp only [step, h1]; exact he
            · simp only [step, h1]; exact hK
          · apply ih
            · simp only [step, h1]; exact he
            · simp only [step, h1]; exact hK
      | poll j =>
          have hv : ∃ v, step s (.poll j) = { s with seen := v } := by
            simp only [step, poll]
            split
            · exact ⟨_, rfl⟩
            · exact ⟨s.seen, rfl⟩
          obtain ⟨v, hv⟩ := hv
          rw [hv]
          exact ih { s with seen := v } K he hK

theorem map_keyed {as : List Act} {k : Key} {i : Nat} (h : (k, i) ∈ (run as).map) :
    keyOf i 0 as = some k :=
  keyed_run_aux as St.init (fun i => keyOf i 0 as) (by simp [St.init]) (fun _ _ => rfl) k i h

theorem keyOf_mem (as : List Act) : ∀ (i n : Nat) (k : Key), keyOf i n as = some k →
    k.ticket ∈ tickets as := by
  induction as with
  | nil => intro i n k h; simp [keyOf] at h
  | cons a as ih =>
      intro i n k h
      cases a with
      | subscribe q =>
          simp only [keyOf] at h
          simp only [tickets, List.mem_cons]
          split at h
          · rw [Option.some.inj h]; exact .inl rfl
          · exact .inr (ih _ _ _ h)
      | drop j => exact ih _ _ _ h
      | unlisten q => exact ih _ _ _ h
      | result r c => exact ih _ _ _ h
      | poll j => exact ih _ _ _ h

theorem streamOf_append (i : Nat) (as bs : List Act) (k : Key) : ∀ n, n + (tickets as).length = i →
    streamOf i n (as ++ .subscribe k :: bs) = window i k bs := by
  induction as with
  | nil => intro n h; simp only [tickets, List.length_nil] at h; simp [streamOf]; omega
  | cons a as ih =>
      intro n h
      cases a with
      | subscribe q =>
          simp only [tickets, List.length_cons] at h
          simp only [List.cons_append, streamOf]
          rw [if_neg (by omega)]
          exact ih (n + 1) (by omega)
      | drop j => exact ih n h
      | unlisten q => exact ih n h
      | result r c => exact ih n h
      | poll j => exact ih n h

theorem keyOf_append (i : Nat) (as bs : List Act) (k : Key) : ∀ n, n + (tickets as).length = i →
    keyOf i n (as ++ .subscribe k :: bs) = some k := by
  induction as with
  | nil => intro n h; simp only [tickets, List.length_nil] at h; simp [keyOf]; omega
  | cons a as ih =>
      intro n h
      cases a with
      | subscribe q =>
          simp only [tickets, List.length_cons] at h
          simp only [List.cons_append, keyOf]
          rw [if_neg (by omega)]
          exact ih (n + 1) (by omega)
      | drop j => exact ih n h
      | unlisten q => exact ih n h
      | result r c => exact ih n h
      | poll j => exact ih n h

theorem mem_window {i : Nat} {k : Key} {r : NodeResult} {c : Nat} (hc : Concerns k r)
    (post : List Act) : ∀ mid : List Act, Act.drop i ∉ mid → Act.unlisten k ∉ mid →
    r ∈ window i k (mid ++ .result r c :: post) := by
  intro mid
  induction mid with
  | nil => intro _ _; simp [window, hc]
  | cons a mid ih =>
      intro h1 h2
      simp only [List.mem_cons, not_or] at h1 h2
      have := ih h1.2 h2.2
      cases a with
      | subscribe q => exact this
      | drop j =>
          simp only [List.cons_append, window]
          rw [if_neg (fun h => h1.1 (by rw [h]))]
          exact this
      | unlisten q =>
          simp only [List.cons_append, window]
          rw [if_neg (fun h => h2.1 (by rw [h]))]
          exact this
      | result q d =>
          simp only [List.cons_append, window]
          split
          · exact List.mem_cons_of_mem _ this
          · exact this
      | poll j => exact this

/-- A channel that no listener holds gets nothing more. -/
theorem silent (bs : List Act) : ∀ (s : St) (i : Nat), i < s.next → (∀ k, (k, i) ∉ s.map) →
    (runFrom s bs).log i = s.log i := by
  induction bs with
  | nil => intro s i _ _; rfl
  | cons a bs ih =>
      intro s i hi hn
      rw [runFrom_cons]
      cases a with
      | subscribe k =>
          rw [ih _ i (by simp only [step, register]; omega)]
          · rfl
          · intro q hq
            simp only [step, register, List.mem_cons, mem_eraseKey, Prod.mk.injEq] at hq
            rcases hq with h | h
            · omega
            · exact hn q h.1
      | drop j =>
          have hlog : (step s (.drop j)).log = s.log := by
            simp only [step, dropSub]; split <;> rfl
          have hnext : (step s (.drop j)).next = s.next := by
            simp only [step, dropSub]; split <;> rfl
          rw [ih _ i (by rw [hnext]; exact hi), hlog]
          intro q hq
          simp only [step, dropSub] at hq
          split at hq
          · exact hn q hq
          · simp only [removeListener, mem_eraseKey] at hq
            exact hn q hq.1
      | unlisten k =>
          rw [ih (step s (.unlisten k)) i hi]
          · rfl
          · intro q hq
            simp only [step, removeListener, mem_eraseKey] at hq
            exact hn q hq.1
      | result r c =>
          rcases deliver_cases s r c with h1 | ⟨k, j, hm, _, _, h1⟩
          · simp only [step, h1]
            rw [ih { s with deflt := s.deflt ++ [r] } i hi hn]
          · simp only [step, h1]
            rw [ih { s with log := upd s.log j (s.log j ++ [r]) } i hi hn]
            simp only
            exact upd_ne _ _ (by rintro rfl; exact hn k hm)
      | poll j =>
          have hv : ∃ v, step s (.poll j) = { s with seen := v } := by
            simp only [step, poll]
            split
            · exact ⟨_, rfl⟩
            · exact ⟨s.seen, rfl⟩
          obtain ⟨v, hv⟩ := hv
          rw [hv]
          exact ih { s with seen := v } i hi hn

end Verif.Callbacks

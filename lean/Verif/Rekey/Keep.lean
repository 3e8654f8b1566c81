import Verif.Rekey.Noise
/-
Tools for the preservation of the invariant: the trigger task of the non-initiator, the messages it skips, the key
stores.
-/
namespace Verif.Rekey

theorem bgEnabled_check {x : EP} (h : bgEnabled x = true) (hb : bBlocking x.b = false) : ∀ l, x.t ≠ .check l := by
  intro l ht
  simp [bgEnabled, holdsExecutor, ht, hb] at h

theorem step_bgI {P : Sys → Prop} {maxR : Nat} {i n : EP} {toI toN : List Msg} {fr : Nat} (h0 : P ⟨i, n, toI, toN⟩)
    (h : bgEnabled i = true → ∃ r, bMacro maxR true i toI fr = r ∧ P ⟨r.1, n, r.2.1, toN ++ r.2.2⟩) :
    P (coopStep maxR ⟨i, n, toI, toN⟩ (.bg true fr)) := by
  unfold coopStep
  by_cases he : bgEnabled i = true
  · obtain ⟨r, hr, hP⟩ := h he
    simp only [he, if_true, hr]
    exact hP
  · simp only [he]
    exact h0

theorem step_bgN {P : Sys → Prop} {maxR : Nat} {i n : EP} {toI toN : List Msg} {fr : Nat} (h0 : P ⟨i, n, toI, toN⟩)
    (h : bgEnabled n = true → ∃ r, bMacro maxR false n toN fr = r ∧ P ⟨i, r.1, toI ++ r.2.2, r.2.1⟩) :
    P (coopStep maxR ⟨i, n, toI, toN⟩ (.bg false fr)) := by
  unfold coopStep
  by_cases he : bgEnabled n = true
  · obtain ⟨r, hr, hP⟩ := h he
    simp only [he, if_true, hr]
    exact hP
  · simp only [he]
    exact h0

theorem step_trigI {P : Sys → Prop} {maxR : Nat} {i n : EP} {toI toN : List Msg} {fr : Nat}
    (h : P ⟨(tMacro i fr).1, n, toI, toN ++ (tMacro i fr).2⟩) : P (coopStep maxR ⟨i, n, toI, toN⟩ (.trig true fr)) := h

theorem step_trigN {P : Sys → Prop} {maxR : Nat} {i n : EP} {toI toN : List Msg} {fr : Nat}
    (h : P ⟨i, (tMacro n fr).1, toI ++ (tMacro n fr).2, toN⟩) : P (coopStep maxR ⟨i, n, toI, toN⟩ (.trig false fr)) := h

theorem step_trigI_refused {P : Sys → Prop} {maxR : Nat} {i n : EP} {toI toN : List Msg} {fr : Nat}
    (ht : i.t = .idle) (hc : i.latest < i.declared ∨ i.role ≠ .idle ∨ i.tog = true)
    (h : P ⟨i, n, toI, toN⟩) : P (coopStep maxR ⟨i, n, toI, toN⟩ (.trig true fr)) := by
  apply step_trigI
  rw [tMacro_refused ht hc, List.append_nil]
  exact h

theorem step_trigN_refused {P : Sys → Prop} {maxR : Nat} {i n : EP} {toI toN : List Msg} {fr : Nat}
    (ht : n.t = .idle) (hc : n.latest < n.declared ∨ n.role ≠ .idle ∨ n.tog = true)
    (h : P ⟨i, n, toI, toN⟩) : P (coopStep maxR ⟨i, n, toI, toN⟩ (.trig false fr)) := by
  apply step_trigN
  rw [tMacro_refused ht hc, List.append_nil]
  exact h

theorem step_bgI_nil {P : Sys → Prop} {maxR : Nat} {i n : EP} {toN : List Msg} {fr : Nat} (hb : i.b = .recv)
    (h : P ⟨i, n, [], toN⟩) : P (coopStep maxR ⟨i, n, [], toN⟩ (.bg true fr)) := by
  apply step_bgI h
  intro _
  refine ⟨_, bMacro_recv_nil hb, ?_⟩
  simp only [List.append_nil]
  exact h

theorem step_bgN_nil {P : Sys → Prop} {maxR : Nat} {i n : EP} {toI : List Msg} {fr : Nat} (hb : n.b = .recv)
    (h : P ⟨i, n, toI, []⟩) : P (coopStep maxR ⟨i, n, toI, []⟩ (.bg false fr)) := by
  apply step_bgN h
  intro _
  refine ⟨_, bMacro_recv_nil hb, ?_⟩
  simp only [List.append_nil]
  exact h

/-! ### Key stores -/

theorem Win.keyI {i n : EP} (h : Win i n) (hm : i.latest ≤ i.most) : (i.keys i.latest).isSome = true :=
  (h.hI _).mpr ⟨h.loI, hm⟩

theorem Win.keyN {i n : EP} (h : Win i n) (hm : n.latest ≤ n.most) : (n.keys n.latest).isSome = true :=
  (h.hN _).mpr ⟨h.loN, hm⟩

/-- Only the other fields change. -/
theorem Win.same {i n i' n' : EP} (h : Win i n) (hki : i'.keys = i.keys) (hoi : i'.oldest = i.oldest)
    (hmi : i'.most = i.most) (hli : i.latest ≤ i'.latest) (hkn : n'.keys = n.keys) (hon : n'.oldest = n.oldest)
    (hmn : n'.most = n.most) (hln : n.latest ≤ n'.latest) : Win i' n' := by
  obtain ⟨a, b, c, d, e⟩ := h
  refine ⟨?_, ?_, ?_, ?_, ?_⟩
  · rw [hki, hoi, hmi]; exact a
  · rw [hkn, hon, hmn]; exact b
  · rw [hki, hkn]; exact c
  · rw [hoi]; omega
  · rw [hon]; omega

theorem Win.frameI {i n i' : EP} (h : Win i n) (f : Frame i i') : Win i' n :=
  h.same f.keys f.oldest f.most (Nat.le_of_eq f.latest.symm) rfl rfl rfl (Nat.le_refl _)

theorem Win.frameN {i n n' : EP} (h : Win i n) (f : Frame n n') : Win i n' :=
  h.same rfl rfl rfl (Nat.le_refl _) f.keys f.oldest f.most (Nat.le_of_eq f.latest.symm)

theorem Win.symm {i n : EP} (h : Win i n) : Win n i :=
  ⟨h.hN, h.hI, fun k p q hp hq => (h.agree k q p hq hp).symm, h.loN, h.loI⟩

/-- A new ratchet that the other endpoint does not hold differently. -/
theorem Win.commitI {i n i' : EP} {k : Key} (h : Win i n) (hm : i.latest ≤ i.most)
    (hk : i'.keys = put i.keys (i.most + 1) k) (ho : i'.oldest = i.oldest) (hm' : i'.most = i.most + 1)
    (hl : i'.latest = i.latest) (hn : ∀ q, n.keys (i.most + 1) = some q → k = q) : Win i' n := by
  obtain ⟨a, b, c, d, e⟩ := h
  refine ⟨?_, b, ?_, by rw [ho, hl]; exact d, e⟩
  · intro j
    rw [hk, ho, hm']
    by_cases hj : j = i.most + 1
    · rw [hj, put_same]; simp; omega
    · rw [put_ne _ _ hj, a j]; omega
  · intro j p q hp hq
    rw [hk] at hp
    by_cases hj : j = i.most + 1
    · rw [hj, put_same] at hp
      rw [hj] at hq
      cases hp
      exact hn q hq
    · rw [put_ne _ _ hj] at hp
      exact c j p q hp hq

/-- The oldest ratchet goes. -/
theorem Win.deregI {i n i' : EP} (h : Win i n) (hk : i'.keys = del i.keys i.oldest) (ho : i'.oldest = i.oldest + 1)
    (hm : i'.most = i.most) (hl : i'.oldest ≤ i'.latest) : Win i' n := by
  obtain ⟨a, b, c, d, e⟩ := h
  refine ⟨?_, b, ?_, hl, e⟩
  · intro j
    rw [hk, ho, hm]
    by_cases hj : j = i.oldest
    · rw [hj, del_same]; simp; omega
    · rw [del_ne _ hj, a j]; omega
  · intro j p q hp hq
    rw [hk] at hp
    by_cases hj : j = i.oldest
    · rw [hj, del_same] at hp; cases hp
    · rw [del_ne _ hj] at hp
      exact c j p q hp hq

theorem Win.commitN {i n n' : EP} {k : Key} (h : Win i n) (hm : n.latest ≤ n.most)
    (hk : n'.keys = put n.keys (n.most + 1) k) (ho : n'.oldest = n.oldest) (hm' : n'.most = n.most + 1)
    (hl : n'.latest = n.latest) (hn : ∀ q, i.keys (n.most + 1) = some q → k = q) : Win i n' :=
  (h.symm.commitI hm hk ho hm' hl hn).symm

theorem Win.deregN {i n n' : EP} (h : Win i n) (hk : n'.keys = del n.keys n.oldest) (ho : n'.oldest = n.oldest + 1)
    (hm : n'.most = n.most) (hl : n'.oldest ≤ n'.latest) : Win i n' :=
  (h.symm.deregI hk ho hm hl).symm

theorem Win.none {i n : EP} (h : Win i n) {k : Nat} (hk : n.most < k) : ∀ q, n.keys k ≠ some q := by
  intro q hq
  have := (h.hN k).mp (by rw [hq]; rfl)
  omega

theorem budget_congr {x x' : EP} (ht : x'.t = x.t) (hd : x'.declared = x.declared) (hl : x'.latest = x.latest) :
    budget x' = budget x := by
  unfold budget; rw [ht, hd, hl]

theorem budget_le (x : EP) : budget x ≤ 2 := by
  unfold budget
  cases x.t <;> simp <;> split <;> omega

theorem Noise.old {q : Prop} {x : EP} {tr : List Msg} (h : Noise q x tr) (hL : Late x) : Old x.latest tr := by
  rcases h.st with ⟨ht', ho, hc'⟩ | ⟨a, pre, ht', htr, ho, hc', hd', hL'⟩ | ⟨c, ht', ho, hd', hL'⟩ |
    ⟨c, ht', ho, hc', hd', hL'⟩ | ⟨c, ht', ho, hc', hd', hL'⟩ | ⟨u, c, hu, ht', ho, hc'⟩ | ⟨u, c, hu, ht', ho, hc'⟩ |
    ⟨u, c, hu, ht', ho, hc'⟩ | ⟨u, c, hu, ht', ho, hc'⟩
  case sent => exact absurd hL hL'
  all_goals exact ho

theorem Rest.late {x : EP} (h : Rest x) : x.role = .idle → ¬ Late x := by
  rintro hr (hb | hb)
  · rcases h with h | h
    · rw [h.1] at hb; cases hb
    · rw [h.1] at hb; cases hb
  · rcases h with h | h
    · rw [h.1] at hb; cases hb
    · exact h.2 hr

theorem Rest.frame {x x' : EP} (h : Rest x) (f : Frame x x') : Rest x' := by
  unfold Rest
  rw [f.b, f.role, f.rmeta, f.latest]
  exact h

theorem Answering.frame {v c : Nat} {x x' : EP} (h : Answering v c x) (f : Frame x x') : Answering v c x' := by
  rcases h with ⟨hb, hr, hm⟩ | ⟨b, hb, hr, hm, hk⟩ | ⟨b, hb, hr, hm, hk⟩
  · exact .start (by rw [f.b]; exact hb) (by rw [f.role]; exact hr) (by rw [f.most]; exact hm)
  · exact .done b (by rw [f.b]; exact hb) (by rw [f.role]; exact hr) (by rw [f.most]; exact hm)
      (by rw [f.keys]; exact hk)
  · exact .send b (by rw [f.b]; exact hb) (by rw [f.role]; exact hr) (by rw [f.most]; exact hm)
      (by rw [f.keys]; exact hk)

theorem Answering.notLate {v c : Nat} {x : EP} (h : Answering v c x) : ¬ Late x := by
  unfold Late
  rcases h with ⟨hb, hr, hm⟩ | ⟨b, hb, hr, hm, hk⟩ | ⟨b, hb, hr, hm, hk⟩
  · rcases hb with hb | hb <;> simp [hb]
  all_goals simp [hb]

theorem Answering.most {v c : Nat} {x : EP} (h : Answering v c x) : v ≤ x.most := by
  rcases h with ⟨hb, hr, hm⟩ | ⟨b, hb, hr, hm, hk⟩ | ⟨b, hb, hr, hm, hk⟩ <;> omega

theorem Answered.frame {v c b : Nat} {x x' : EP} (h : Answered v c b x) (f : Frame x x') : Answered v c b x' :=
  ⟨by rw [f.b]; exact h.hb, by rw [f.role]; exact h.hr, by rw [f.most]; exact h.hm, by rw [f.keys]; exact h.hk⟩

theorem Answered.notLate {v c b : Nat} {x : EP} (h : Answered v c b x) : ¬ Late x := by
  unfold Late; simp [h.hb]

theorem Leading.frameY {maxR v c b : Nat} {x y y' : EP} (h : Leading maxR v c b x y) (f : Frame y y') :
    Leading maxR v c b x y' := by
  rcases h with ⟨hb, hm, ho⟩ | ⟨o, hb, hm, ho, ho', hx⟩ | ⟨o, hb, hm, ho, ho', hx⟩ | ⟨hb, hm, ho'⟩
  · exact .commit hb hm (by rw [f.oldest]; exact ho)
  · exact .full o hb hm ho (by rw [f.oldest]; exact ho') hx
  · exact .trunc o hb hm ho (by rw [f.oldest]; exact ho') hx
  · exact .room hb hm (by rw [f.oldest]; exact ho')

theorem Forward.frameY {maxR v : Nat} {x y y' : EP} {l : List Msg} (h : Forward maxR v x y l) (f : Frame y y') :
    Forward maxR v x y' l := by
  rcases h with ⟨o, ho, ho', hx⟩ | ⟨ho'⟩
  · exact .trunc o ho (by rw [f.oldest]; exact ho') hx
  · exact .room (by rw [f.oldest]; exact ho')

/-! ### The non-initiator -/

/-- A step of the non-initiator's trigger task. -/
theorem np_trig {v : Nat} {x : EP} {l : List Msg} {fr : Nat} (h : NP v x l) (hv : x.latest = v)
    (hk : (x.keys x.latest).isSome = true) :
    NP v (tMacro x fr).1 (l ++ (tMacro x fr).2) ∧ Frame x (tMacro x fr).1 ∧
      (∀ k, k ≠ v + 1 → (tMacro x fr).1.cons k = x.cons k) ∧ (Free (tMacro x fr).1 → Free x) := by
  subst hv
  cases h with
  | none ht hg hd hc hb hr =>
    rw [tMacro_start ht (by omega) hr hg hk]
    refine ⟨.t8 fr rfl rfl hd hc ⟨?_, ?_⟩, ⟨rfl, rfl, rfl, rfl, rfl, rfl, rfl, rfl⟩, fun _ _ => rfl, ?_⟩
    · rcases hb with hb | hb
      · exact Or.inl hb
      · exact Or.inr (Or.inl hb)
    · dsimp only; rw [hr]; decide
    · intro hf; cases hf.1
  | fin ht hd hc hb hr =>
    rw [tMacro_refused ht (Or.inr (Or.inl hr))]
    exact ⟨.fin ht hd hc hb hr, frame_refl x, fun _ _ => rfl, id⟩
  | t8 c ht hg hd hc hb =>
    rw [tMacro_declare ht]
    refine ⟨.t11 c rfl rfl (by dsimp only; omega) (put_same _ _ _) hb, ⟨rfl, rfl, rfl, rfl, rfl, rfl, rfl, rfl⟩,
      fun k hk' => put_ne _ _ hk', ?_⟩
    intro hf; cases hf.1
  | t11 c ht hg hd hc hb =>
    rw [tMacro_check_ok ht rfl]
    refine ⟨.t15 c rfl hg hd hc hb, ⟨rfl, rfl, rfl, rfl, rfl, rfl, rfl, rfl⟩, fun _ _ => rfl, ?_⟩
    intro hf; cases hf.1
  | t15 c ht hg hd hc hb =>
    rw [tMacro_send ht]
    refine ⟨.out c rfl hg hd hc hb, ⟨rfl, rfl, rfl, rfl, rfl, rfl, rfl, rfl⟩, fun _ _ => rfl, ?_⟩
    intro hf
    have := hf.2
    dsimp only at this
    omega
  | out c ht hg hd hc hb =>
    rw [tMacro_refused ht (Or.inl (by omega)), List.append_nil]
    exact ⟨.out c ht hg hd hc hb, frame_refl x, fun _ _ => rfl, id⟩

/-- What the background task of the non-initiator may change while its own proposal is open. -/
structure Same (x x' : EP) : Prop where
  latest : x'.latest = x.latest
  declared : x'.declared = x.declared
  tog : x'.tog = x.tog
  oldest : x'.oldest = x.oldest
  most : x'.most = x.most
  keys : x'.keys = x.keys
  rmeta : x'.rmeta = x.rmeta
  t : x'.t = x.t
  cons : x'.cons (x.latest + 1) = x.cons (x.latest + 1)

theorem inProc_congr {x x' : EP} (hb : x'.b = x.b) (hl : x'.latest = x.latest) : inProc x' = inProc x := by
  unfold inProc; rw [hb, hl]

theorem inProc_recv {x : EP} (hb : x.b = .recv) : inProc x = [] := by simp [inProc, hb]

/-- The background task of the non-initiator while its own proposal is open: it looks at the proposals of the
initiator and does not take them up. -/
theorem busy_bg {maxR : Nat} {i x : EP} {inn tl y : List Msg} {fr : Nat}
    (hk : (x.keys x.latest).isSome = true) (hv : i.latest = x.latest) (hrm : x.rmeta = x.latest) (hg : x.tog = true)
    (hb : Busy x) (hcn : ∀ k, k ≠ x.latest + 1 → x.cons k = none)
    (hn : Noise False i (inProc x ++ (inn ++ y)))
    (hbud : x.skipped + (inProc x ++ (inn ++ y)).length + budget i ≤ 2) (hin : x.b = .recv → inn ≠ []) :
    ∃ x' inn', bMacro maxR false x (inn ++ tl) fr = (x', inn' ++ tl, []) ∧ Same x x' ∧ Busy x' ∧
      (∀ k, k ≠ x.latest + 1 → x'.cons k = none) ∧
      Noise False i (inProc x' ++ (inn' ++ y)) ∧
      x'.skipped + (inProc x' ++ (inn' ++ y)).length + budget i ≤ 2 := by
  obtain ⟨hb', hr⟩ := hb
  rcases hb' with hb' | ⟨a, hb'⟩ | hb'
  · cases inn with
    | nil => exact absurd rfl (hin hb')
    | cons m inn =>
      rw [inProc_recv hb'] at hn hbud
      simp only [List.nil_append, List.cons_append, List.length_cons] at hn hbud
      have hs : x.skipped + 1 < maxStale := by unfold maxStale; omega
      rcases hn.head with ⟨a, u, hm, hu⟩ | ⟨a, hm, htr, _⟩
      · subst hm
        refine ⟨_, inn, bMacro_a2b_stale hb' hk (by omega) hs,
          ⟨rfl, rfl, rfl, rfl, rfl, rfl, rfl, rfl, ?_⟩, ⟨Or.inl rfl, hr⟩, ?_, ?_, ?_⟩
        · exact del_ne _ (by omega)
        · intro k hk'
          exact del_none _ (hcn k hk')
        · exact hn.drop
        · rw [inProc_recv rfl]
          simp only [List.nil_append]
          omega
      · subst hm
        by_cases hl : x.role = .leader ∧ x.cons (x.latest + 1) = none
        · refine ⟨_, inn, bMacro_a2b_leader hb' hk hv hl.1 (by rw [hv]; exact hl.2) hs,
            ⟨rfl, rfl, rfl, rfl, rfl, rfl, rfl, rfl, rfl⟩, ⟨Or.inl rfl, hr⟩, hcn, hn.drop, ?_⟩
          rw [inProc_recv rfl]
          simp only [List.nil_append]
          omega
        · refine ⟨_, inn, bMacro_a2b_ok hb' hk hv (by rw [hrm, hv]) (fun h h' => hl ⟨h, by rw [← hv]; exact h'⟩),
            ⟨rfl, rfl, rfl, rfl, rfl, rfl, rfl, rfl, rfl⟩, ⟨Or.inr (Or.inl ⟨a, rfl⟩), hr⟩, hcn, ?_, ?_⟩
          · simp only [inProc, List.cons_append, List.nil_append]
            rw [← hv]
            exact hn
          · simp only [inProc, List.cons_append, List.nil_append, List.length_cons]
            omega
  · have e : inProc x = [.aliceToBob a x.latest x.latest] := by simp [inProc, hb']
    rw [e] at hn hbud
    refine ⟨_, inn, bMacro_bToggle_contended hb' hg rfl,
      ⟨rfl, rfl, rfl, rfl, rfl, rfl, rfl, rfl, rfl⟩, ⟨Or.inr (Or.inr rfl), hr⟩, hcn, ?_, ?_⟩
    · exact hn.drop
    · simp only [inProc, List.nil_append]
      simp only [List.cons_append, List.nil_append, List.length_cons] at hbud
      omega
  · have e : inProc x = [] := by simp [inProc, hb']
    rw [e] at hn hbud
    refine ⟨_, inn, bMacro_bContended hb',
      ⟨rfl, rfl, rfl, rfl, rfl, rfl, rfl, rfl, rfl⟩, ⟨Or.inl rfl, fun h => by cases h⟩, hcn, ?_, ?_⟩
    · exact hn
    · exact hbud

/-- A leader that waits for the loser skips every proposal. -/
theorem lead_bg {maxR : Nat} {x : EP} {a u fr : Nat} {rest : List Msg} (hb : x.b = .recv)
    (hk : (x.keys x.latest).isSome = true) (hr : x.role = .leader) (hu : u ≤ x.latest)
    (hcn : ∀ k, x.cons k = none) (hs : x.skipped + 1 < maxStale) :
    bMacro maxR false x (.aliceToBob a u u :: rest) fr = ({ x with skipped := x.skipped + 1 }, rest, []) := by
  rcases Nat.lt_or_ge u x.latest with hlt | hge
  · rw [bMacro_a2b_stale hb hk hlt hs]
    have : del x.cons (u + 1) = x.cons := by
      funext k
      rw [del_none _ (hcn k), hcn k]
    rw [this, ← hb]
  · have : u = x.latest := by omega
    subst this
    rw [bMacro_a2b_leader hb hk rfl hr (hcn _) hs, ← hb]

end Verif.Rekey

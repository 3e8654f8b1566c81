import Verif.CallChan.Lemmas
/-!
# Properties C130 and C131: request and response channels
-/
namespace Verif.CallChan

/-! ## C130: a response goes to the call whose request it answers -/

/-- Tracked channel: a call that returns `r` was answered with `r` by a holder of the request that
carries its own payload. -/
theorem C130_tracked_own_response (cap : Nat) (as : List Act) (i r : Nat)
    (h : (tRun (St.init cap) as).status i = .ok r) :
    ∃ x, Act.reply (i, x) r ∈ as ∧ payloadOf i 1 as = some x := by
  have key : ∀ (as : List Act) (s : St) (P : Nat → Option Nat), Good s P → Mapped s →
      (∀ i, s.next ≤ i → P i = payloadOf i s.next as) → (tRun s as).status i = .ok r →
      s.status i = .ok r ∨ ∃ x, Act.reply (i, x) r ∈ as ∧ P i = some x := by
    intro as
    induction as with
    | nil => intro s P _ _ _ h; exact .inl h
    | cons a as ih =>
        intro s P g m hP h
        have hp := payloadOf_tail hP
        rw [tRun_cons] at h
        rcases ih (tStep s a) P (good_tStep a g hp.1) (mapped_tStep a g m)
          (by rw [next_tStep]; exact hp.2) h with h1 | ⟨x, hx, hy⟩
        · rcases tStep_ok g m a i r h1 with h2 | ⟨x, hx, hy⟩
          · exact .inl h2
          · exact .inr ⟨x, by rw [hx]; exact List.mem_cons_self, hy⟩
        · exact .inr ⟨x, List.mem_cons_of_mem _ hx, hy⟩
  rcases key as (St.init cap) (fun i => payloadOf i 1 as) (good_init cap _) (mapped_init cap)
    (fun _ _ => rfl) h with h1 | h1
  · simp [St.init] at h1
  · exact h1

/-- Plain channel: the same. -/
theorem C130_plain_own_response (cap : Nat) (as : List Act) (i r : Nat)
    (h : (cRun (St.init cap) as).status i = .ok r) :
    ∃ x, Act.reply (i, x) r ∈ as ∧ payloadOf i 1 as = some x := by
  have key : ∀ (as : List Act) (s : St) (P : Nat → Option Nat), Good s P →
      (∀ i, s.next ≤ i → P i = payloadOf i s.next as) → (cRun s as).status i = .ok r →
      s.status i = .ok r ∨ ∃ x, Act.reply (i, x) r ∈ as ∧ P i = some x := by
    intro as
    induction as with
    | nil => intro s P _ _ h; exact .inl h
    | cons a as ih =>
        intro s P g hP h
        have hp := payloadOf_tail hP
        rw [cRun_cons] at h
        rcases ih (cStep s a) P (good_cStep a g hp.1)
          (by rw [next_cStep]; exact hp.2) h with h1 | ⟨x, hx, hy⟩
        · rcases cStep_ok g a i r h1 with h2 | ⟨x, hx, hy⟩
          · exact .inl h2
          · exact .inr ⟨x, by rw [hx]; exact List.mem_cons_self, hy⟩
        · exact .inr ⟨x, List.mem_cons_of_mem _ hx, hy⟩
  rcases key as (St.init cap) (fun i => payloadOf i 1 as) (good_init cap _)
    (fun _ _ => rfl) h with h1 | h1
  · simp [St.init] at h1
  · exact h1

/-- Requests under way carry the payload of their call, and no number is under way twice. -/
theorem C130_requests_intact (cap : Nat) (as : List Act) (p : Nat × Nat) (h0 : p.1 ≠ 0) :
    (p ∈ (tRun (St.init cap) as).queue ∨ p ∈ (tRun (St.init cap) as).held →
      payloadOf p.1 1 as = some p.2) ∧
    (p ∈ (cRun (St.init cap) as).queue ∨ p ∈ (cRun (St.init cap) as).held →
      payloadOf p.1 1 as = some p.2) ∧
    num (tRun (St.init cap) as).queue p.1 + num (tRun (St.init cap) as).held p.1 ≤ 1 ∧
    num (cRun (St.init cap) as).queue p.1 + num (cRun (St.init cap) as).held p.1 ≤ 1 := by
  have h1 := good_tRun as (good_init cap (fun i => payloadOf i 1 as)) (mapped_init cap)
    (fun _ _ => rfl)
  have h2 := good_cRun as (good_init cap (fun i => payloadOf i 1 as)) (fun _ _ => rfl)
  exact ⟨fun h => h1.1.payload p h h0, fun h => h2.payload p h h0, h1.1.once p.1 h0, h2.once p.1 h0⟩

/-- What a call has returned does not change any more. -/
theorem C130_response_final (cap : Nat) (as bs : List Act) (i r : Nat)
    (h : (tRun (St.init cap) as).status i = .ok r) :
    (tRun (St.init cap) (as ++ bs)).status i = .ok r := by
  have hpush : ∀ (t : St) (j x : Nat), j ≠ i → t.status i = .ok r →
      (tPush t j x).status i = .ok r := by
    intro t j x hj ht
    unfold tPush
    repeat' split
    all_goals simp only [set]
    all_goals rw [if_neg (fun h => hj h.symm)]
    all_goals exact ht
  have step : ∀ (s : St) (P : Nat → Option Nat) (a : Act), Good s P → s.status i = .ok r →
      (tStep s a).status i = .ok r := by
    intro s P a g hs
    cases a with
    | send x =>
        refine hpush { s with next := s.next + 1, map := s.next :: s.map } s.next x ?_ hs
        rintro rfl
        rw [g.unused _ (Nat.le_refl _)] at hs
        simp at hs
    | resume j =>
        simp only [tStep]
        split
        · rename_i x hx
          refine hpush _ _ _ ?_ hs
          rintro rfl
          rw [hs] at hx; simp at hx
        · exact hs
    | cancel j =>
        simp only [tStep]
        split
        · rename_i x hx
          simp only [set]
          rw [if_neg (by rintro rfl; rw [hs] at hx; simp at hx)]
          exact hs
        · rename_i hx
          simp only [set]
          rw [if_neg (by rintro rfl; rw [hs] at hx; simp at hx)]
          exact hs
        · exact hs
    | sendNo x => simp only [tStep]; split <;> exact hs
    | recv =>
        simp only [tStep]
        split
        · exact hs
        · split <;> exact hs
    | reply p q =>
        simp only [tStep]
        split
        · split
          · split
            · rename_i hx
              simp only [set]
              rw [if_neg (by rintro rfl; rw [hs] at hx; simp at hx)]
              exact hs
            · exact hs
          · exact hs
        · exact hs
    | discard p => exact hs
    | dropRx => exact hs
  have run : ∀ (bs : List Act) (s : St) (P : Nat → Option Nat), Good s P → Mapped s →
      (∀ j, s.next ≤ j → P j = payloadOf j s.next bs) → s.status i = .ok r →
      (tRun s bs).status i = .ok r := by
    intro bs
    induction bs with
    | nil => intro s P _ _ _ h; exact h
    | cons a bs ih =>
        intro s P g m hP hs
        have hp := payloadOf_tail hP
        rw [tRun_cons]
        exact ih _ P (good_tStep a g hp.1) (mapped_tStep a g m) (by rw [next_tStep]; exact hp.2)
          (step s P a g hs)
  have hsplit : tRun (St.init cap) (as ++ bs) = tRun (tRun (St.init cap) as) bs := by
    simp [tRun, List.foldl_append]
  rw [hsplit]
  have hg := good_tRun as (good_init cap (fun i => payloadOf i 1 as)) (mapped_init cap)
    (fun _ _ => rfl)
  have hg2 : Good (tRun (St.init cap) as) (fun j => if j < (tRun (St.init cap) as).next then
      payloadOf j 1 as else payloadOf j (tRun (St.init cap) as).next bs) := by
    obtain ⟨⟨a, b, c, d, e, f, g, k⟩, _⟩ := hg
    refine ⟨a, b, c, ?_, ?_, f, g, k⟩
    · intro p hp h0
      have : p.1 < (tRun (St.init cap) as).next := by
        rcases Nat.lt_or_ge p.1 (tRun (St.init cap) as).next with h | h
        · exact h
        · have h3 := f p.1 0 (.inl (b _ h)) h0
          have h4 : 0 < num (tRun (St.init cap) as).queue p.1 + num (tRun (St.init cap) as).held p.1 := by
            rcases hp with hp | hp
            · have := num_pos.2 ⟨p.2, hp⟩; omega
            · have := num_pos.2 ⟨p.2, hp⟩; omega
          omega
      simp only [this, if_true]
      exact d p hp h0
    · intro j x hj
      have : j < (tRun (St.init cap) as).next := by
        rcases Nat.lt_or_ge j (tRun (St.init cap) as).next with h | h
        · exact h
        · rw [b j h] at hj; simp at hj
      simp only [this, if_true]
      exact e j x hj
  exact run bs _ _ hg2 hg.2 (fun j hj => by rw [if_neg (by omega)]) h

/-- A response to a request that was sent without a callback is refused and changes no call. -/
theorem C130_no_callback_refused (cap : Nat) (as : List Act) (x r : Nat)
    (h : (0, x) ∈ (tRun (St.init cap) as).held) :
    let s := tRun (St.init cap) as
    (tStep s (.reply (0, x) r)).status = s.status ∧ (tStep s (.reply (0, x) r)).map = s.map ∧
    (tStep s (.reply (0, x) r)).refused = s.refused + 1 := by
  have hm : 0 ∉ (tRun (St.init cap) as).map := by
    intro hc
    have := (good_tRun as (good_init cap (fun i => payloadOf i 1 as)) (mapped_init cap)
      (fun _ _ => rfl)).2.range 0 hc
    omega
  simp only [tStep, h, hm, if_true, if_false]
  exact ⟨trivial, trivial, trivial⟩

example : (tRun (St.init 4) [.send 7, .send 8, .recv, .recv, .reply (2, 8) 80, .reply (1, 7) 70,
    .reply (1, 7) 71]).status 1 = .ok 70 ∧
    (tRun (St.init 4) [.send 7, .send 8, .recv, .recv, .reply (2, 8) 80, .reply (1, 7) 70,
    .reply (1, 7) 71]).status 2 = .ok 80 := by
  decide

example : (0, 5) ∈ (tRun (St.init 4) [.send 7, .sendNo 5, .recv, .recv]).held := by decide

/-! ## C131: a request that cannot be answered any more ends

Full statement: a call waits only while its request is in the channel or held. It holds for the
plain channel and is false for the tracked one. -/

/-- Plain channel: a call waits only while its request is in the channel or held by someone. -/
theorem C131_plain_waits_for_live (cap : Nat) (as : List Act) (i : Nat)
    (h : (cRun (St.init cap) as).status i = .waiting) :
    ∃ x, (i, x) ∈ (cRun (St.init cap) as).queue ∨ (i, x) ∈ (cRun (St.init cap) as).held := by
  have hpush : ∀ (s : St) (j x : Nat), (∀ i, s.status i = .waiting →
      0 < num s.queue i + num s.held i) → ∀ i, (cPush s j x).status i = .waiting →
      0 < num (cPush s j x).queue i + num (cPush s j x).held i := by
    intro s j x hs i hi
    unfold cPush at hi ⊢
    split at hi
    · rename_i hr
      rw [if_pos hr]
      split at hi
      · rename_i hl
        rw [if_pos hl]
        simp only [num_append, num_cons, num_nil]
        simp only [set] at hi
        by_cases hj : i = j
        · subst hj; rw [if_pos rfl]; omega
        · rw [if_neg hj] at hi
          have := hs i hi; omega
      · rename_i hl
        rw [if_neg hl]
        simp only [set] at hi
        split at hi
        · simp at hi
        · exact hs i hi
    · rename_i hr
      rw [if_neg hr]
      simp only [set] at hi
      split at hi
      · simp at hi
      · exact hs i hi
  have step : ∀ (s : St) (a : Act), (s.rx = false → s.queue = []) →
      (∀ i, s.status i = .waiting → 0 < num s.queue i + num s.held i) →
      ∀ i, (cStep s a).status i = .waiting →
        0 < num (cStep s a).queue i + num (cStep s a).held i := by
    intro s a hd hs i hi
    cases a with
    | send x => exact hpush { s with next := s.next + 1 } s.next x hs i hi
    | resume j =>
        simp only [cStep] at hi ⊢
        split
        · rename_i x hx
          simp only [hx] at hi
          exact hpush s j x hs i hi
        · rename_i hx
          split at hi
          · rename_i y hy; exact absurd hy (hx y)
          · exact hs i hi
    | cancel j =>
        simp only [cStep] at hi ⊢
        cases hj : s.status j <;> simp only [hj] at hi ⊢
        all_goals first
          | exact hs i hi
          | (simp only [set] at hi
             split at hi
             · simp at hi
             · exact hs i hi)
    | sendNo x =>
        simp only [cStep] at hi ⊢
        by_cases hc : (s.rx && decide (s.queue.length < s.cap)) = true
        · rw [if_pos hc] at hi ⊢
          have := hs i hi
          simp only [num_append]; omega
        · rw [if_neg hc] at hi ⊢
          exact hs i hi
    | recv =>
        simp only [cStep] at hi ⊢
        cases hq : s.queue with
        | nil =>
            simp only [hq] at hi ⊢
            have := hs i hi
            rw [hq] at this
            exact this
        | cons p q =>
            simp only [hq] at hi ⊢
            by_cases hr : s.rx = true
            · rw [if_pos hr] at hi ⊢
              have := hs i hi
              simp only [hq, num_cons] at this ⊢
              omega
            · rw [if_neg hr] at hi ⊢
              exact hs i hi
    | reply p r =>
        simp only [cStep] at hi ⊢
        by_cases hp : p ∈ s.held ∧ p.1 ≠ 0
        · rw [if_pos hp] at hi ⊢
          by_cases hw : s.status p.1 = .waiting
          · simp only [hw] at hi ⊢
            simp only [set] at hi
            split at hi
            · simp at hi
            · rename_i hne
              have := hs i hi
              simp only [num_erase]
              rw [if_neg (by rintro ⟨_, h⟩; exact hne h.symm)]
              omega
          · have h2 : ∀ (t u : St), (match s.status p.1 with
                | .waiting => t
                | _ => u) = u := by
              intro t u
              cases hs' : s.status p.1 <;> simp_all
            have hst : s.status i = .waiting := by
              revert hi
              cases hs' : s.status p.1 <;> simp_all
            have hne : p.1 ≠ i := by rintro rfl; exact hw hst
            have := hs i hst
            have h3 := num_erase p s.held i
            rw [if_neg (by rintro ⟨_, h⟩; exact hne h)] at h3
            cases hs' : s.status p.1 <;> simp_all
        · rw [if_neg hp] at hi ⊢
          exact hs i hi
    | discard p =>
        simp only [cStep] at hi ⊢
        by_cases hp : p ∈ s.held
        · rw [if_pos hp] at hi ⊢
          simp only [set] at hi
          split at hi
          · cases hs' : s.status p.1 <;> simp_all [lost]
          · rename_i hne
            have := hs i hi
            simp only [num_erase]
            rw [if_neg (by rintro ⟨_, h⟩; exact hne h.symm)]
            omega
        · rw [if_neg hp] at hi ⊢
          exact hs i hi
    | dropRx =>
        simp only [cStep] at hi ⊢
        split at hi
        · cases hs' : s.status i <;> simp_all [lost]
        · rename_i hm
          have := hs i hi
          have h0 : num s.queue i = 0 := List.count_eq_zero.2 hm
          simp only [num_nil]
          omega
  have run : ∀ (as : List Act) (s : St) (P : Nat → Option Nat), Good s P →
      (∀ i, s.next ≤ i → P i = payloadOf i s.next as) →
      (∀ i, s.status i = .waiting → 0 < num s.queue i + num s.held i) →
      ∀ i, (cRun s as).status i = .waiting →
        0 < num (cRun s as).queue i + num (cRun s as).held i := by
    intro as
    induction as with
    | nil => intro s P _ _ h; exact h
    | cons a as ih =>
        intro s P g hP hs
        have hp := payloadOf_tail hP
        rw [cRun_cons]
        exact ih _ P (good_cStep a g hp.1) (by rw [next_cStep]; exact hp.2) (step s a g.dead hs)
  have := run as (St.init cap) (fun i => payloadOf i 1 as) (good_init cap _) (fun _ _ => rfl)
    (by simp [St.init]) i h
  by_cases hq : 0 < num (cRun (St.init cap) as).queue i
  · obtain ⟨x, hx⟩ := num_pos.1 hq
    exact ⟨x, .inl hx⟩
  · obtain ⟨x, hx⟩ := num_pos.1 (show 0 < num (cRun (St.init cap) as).held i by omega)
    exact ⟨x, .inr hx⟩

/-- Hence, once the receiver is gone and no request is held, no call waits. -/
theorem C131_plain_all_end (cap : Nat) (as : List Act) (i : Nat)
    (hr : (cRun (St.init cap) as).rx = false) (hh : (cRun (St.init cap) as).held = []) :
    (cRun (St.init cap) as).status i ≠ .waiting := by
  intro h
  have hq := (good_cRun as (good_init cap (fun i => payloadOf i 1 as)) (fun _ _ => rfl)).dead hr
  obtain ⟨x, hx⟩ := C131_plain_waits_for_live cap as i h
  rw [hq, hh] at hx
  simp at hx

/-- Tracked channel: while its request is held, a waiting call can be answered. -/
theorem C131_tracked_answerable_partial (cap : Nat) (as : List Act) (i x r : Nat)
    (h : (tRun (St.init cap) as).status i = .waiting) (hx : (i, x) ∈ (tRun (St.init cap) as).held) :
    (tRun (St.init cap) (as ++ [.reply (i, x) r])).status i = .ok r := by
  have hm := (good_tRun as (good_init cap (fun i => payloadOf i 1 as)) (mapped_init cap)
    (fun _ _ => rfl)).2.waiting i h
  have hsplit : tRun (St.init cap) (as ++ [.reply (i, x) r]) =
      tStep (tRun (St.init cap) as) (.reply (i, x) r) := by
    simp [tRun, List.foldl_append]
  rw [hsplit]
  simp only [tStep, hx, hm, if_true, h, set_same]

/-- A call that failed to send, and one that has its response, leave nothing in the map. -/
theorem C131_tracked_no_slot_left_partial (cap : Nat) (as : List Act) (i r : Nat)
    (h : (tRun (St.init cap) as).status i = .ok r ∨ (tRun (St.init cap) as).status i = .errSend) :
    i ∉ (tRun (St.init cap) as).map :=
  (good_tRun as (good_init cap (fun i => payloadOf i 1 as)) (mapped_init cap)
    (fun _ _ => rfl)).2.over i r h

/-- Tracked channel: a call whose request is neither in the channel nor held waits for ever, and
its sender stays in the map. -/
theorem C131_counterexample_waits_for_ever (cap : Nat) (as bs : List Act) (i : Nat)
    (h : (tRun (St.init cap) as).status i = .waiting)
    (h1 : num (tRun (St.init cap) as).queue i + num (tRun (St.init cap) as).held i = 0)
    (hc : Act.cancel i ∉ bs) :
    (tRun (St.init cap) (as ++ bs)).status i = .waiting ∧
    i ∈ (tRun (St.init cap) (as ++ bs)).map := by
  have hpush : ∀ (s : St) (j x : Nat), j ≠ i → s.status i = .waiting →
      num s.queue i + num s.held i = 0 → i ∈ s.map →
      (tPush s j x).status i = .waiting ∧ i ∈ (tPush s j x).map ∧
      num (tPush s j x).queue i + num (tPush s j x).held i = 0 := by
    intro s j x hj hs hn hm
    unfold tPush
    split
    · split
      · simp only [set, num_append, num_cons, num_nil]
        rw [if_neg (fun h => hj h.symm), if_neg hj]
        exact ⟨hs, hm, by omega⟩
      · simp only [set]
        rw [if_neg (fun h => hj h.symm)]
        exact ⟨hs, hm, hn⟩
    · simp only [set]
      rw [if_neg (fun h => hj h.symm)]
      refine ⟨hs, ?_, hn⟩
      simp only [List.mem_filter, bne_iff_ne]
      exact ⟨hm, fun h => hj h.symm⟩
  have step : ∀ (s : St) (a : Act), 0 < i → i < s.next → a ≠ .cancel i → s.status i = .waiting →
      num s.queue i + num s.held i = 0 → i ∈ s.map →
      (tStep s a).status i = .waiting ∧ i ∈ (tStep s a).map ∧
      num (tStep s a).queue i + num (tStep s a).held i = 0 := by
    intro s a hpos hlt hne hs hn hm
    cases a with
    | send x =>
        exact hpush { s with next := s.next + 1, map := s.next :: s.map } s.next x (by omega) hs hn
          (List.mem_cons_of_mem _ hm)
    | resume j =>
        simp only [tStep]
        split
        · rename_i x hx
          exact hpush s j x (by rintro rfl; rw [hs] at hx; simp at hx) hs hn hm
        · exact ⟨hs, hm, hn⟩
    | cancel j =>
        have hj : i ≠ j := by rintro rfl; exact hne rfl
        simp only [tStep]
        split
        · simp only [set]; rw [if_neg hj]; exact ⟨hs, hm, hn⟩
        · simp only [set]; rw [if_neg hj]; exact ⟨hs, hm, hn⟩
        · exact ⟨hs, hm, hn⟩
    | sendNo x =>
        simp only [tStep]
        split
        · refine ⟨hs, hm, ?_⟩
          simp only [num_append, num_cons, num_nil]
          rw [if_neg (by omega)]
          omega
        · exact ⟨hs, hm, hn⟩
    | recv =>
        simp only [tStep]
        split
        · exact ⟨hs, hm, hn⟩
        · rename_i p q hq
          split
          · refine ⟨hs, hm, ?_⟩
            simp only [hq, num_cons] at hn ⊢
            omega
          · exact ⟨hs, hm, hn⟩
    | reply p r =>
        simp only [tStep]
        split
        · rename_i hp
          have hpi : p.1 ≠ i := by
            rintro rfl
            have := num_pos.2 ⟨p.2, hp⟩
            omega
          have hmf : i ∈ s.map.filter (· != p.1) := by
            simp only [List.mem_filter, bne_iff_ne]
            exact ⟨hm, fun h => hpi h.symm⟩
          split
          · split
            · simp only [set]
              rw [if_neg (fun h => hpi h.symm)]
              exact ⟨hs, hmf, hn⟩
            · exact ⟨hs, hmf, hn⟩
          · exact ⟨hs, hm, hn⟩
        · exact ⟨hs, hm, hn⟩
    | discard p =>
        refine ⟨hs, hm, ?_⟩
        simp only [tStep, num_erase]
        omega
    | dropRx =>
        refine ⟨hs, hm, ?_⟩
        simp only [tStep, num_nil]
        omega
  have run : ∀ (bs : List Act) (s : St), 0 < i → i < s.next → Act.cancel i ∉ bs →
      s.status i = .waiting → num s.queue i + num s.held i = 0 → i ∈ s.map →
      (tRun s bs).status i = .waiting ∧ i ∈ (tRun s bs).map := by
    intro bs
    induction bs with
    | nil => intro s _ _ _ hs _ hm; exact ⟨hs, hm⟩
    | cons a bs ih =>
        intro s hpos hlt hc hs hn hm
        simp only [List.mem_cons, not_or] at hc
        have := step s a hpos hlt (fun h => hc.1 h.symm) hs hn hm
        rw [tRun_cons]
        exact ih _ hpos (by rw [next_tStep]; omega) hc.2 this.1 this.2.2 this.2.1
  have hg := good_tRun as (good_init cap (fun i => payloadOf i 1 as)) (mapped_init cap)
    (fun _ _ => rfl)
  have hm := hg.2.waiting i h
  have hrange := hg.2.range i hm
  have hsplit : tRun (St.init cap) (as ++ bs) = tRun (tRun (St.init cap) as) bs := by
    simp [tRun, List.foldl_append]
  rw [hsplit]
  exact run bs _ (by omega) hrange.2 hc h h1 hm

/-- Both ways to get there: the holder drops the request, or the receiver goes away. The same
actions end the call of the plain channel. -/
example :
    ((tRun (St.init 4) [.send 7, .recv, .discard (1, 7)]).status 1 = .waiting ∧
      num (tRun (St.init 4) [.send 7, .recv, .discard (1, 7)]).queue 1 +
      num (tRun (St.init 4) [.send 7, .recv, .discard (1, 7)]).held 1 = 0 ∧
      (cRun (St.init 4) [.send 7, .recv, .discard (1, 7)]).status 1 = .errRecv) ∧
    ((tRun (St.init 4) [.send 7, .dropRx]).status 1 = .waiting ∧
      num (tRun (St.init 4) [.send 7, .dropRx]).queue 1 +
      num (tRun (St.init 4) [.send 7, .dropRx]).held 1 = 0 ∧
      (cRun (St.init 4) [.send 7, .dropRx]).status 1 = .errRecv) := by
  decide

/-- The map of the tracked channel grows without bound by calls that were given up, although
nothing is under way and nobody waits. -/
theorem C131_counterexample_map_grows (cap : Nat) (hcap : 0 < cap) (n : Nat) :
    ∃ as, (tRun (St.init cap) as).map.length = n ∧ (tRun (St.init cap) as).queue = [] ∧
      (tRun (St.init cap) as).held = [] ∧
      ∀ i, (tRun (St.init cap) as).status i = .unused ∨ (tRun (St.init cap) as).status i = .gone := by
  have key : ∀ n : Nat, ∃ as, (tRun (St.init cap) as).map.length = n ∧
      (tRun (St.init cap) as).queue = [] ∧ (tRun (St.init cap) as).held = [] ∧
      (tRun (St.init cap) as).rx = true ∧ (tRun (St.init cap) as).cap = cap ∧
      ∀ i, (tRun (St.init cap) as).status i = .unused ∨
        (tRun (St.init cap) as).status i = .gone := by
    intro n
    induction n with
    | zero => exact ⟨[], rfl, rfl, rfl, rfl, rfl, fun _ => .inl rfl⟩
    | succ n ih =>
        obtain ⟨as, h1, h2, h3, h4, h5, h6⟩ := ih
        refine ⟨as ++ [.send 0, .recv, .discard ((tRun (St.init cap) as).next, 0),
          .cancel (tRun (St.init cap) as).next], ?_⟩
        have hsplit : ∀ bs, tRun (St.init cap) (as ++ bs) = tRun (tRun (St.init cap) as) bs := by
          intro bs; simp [tRun, List.foldl_append]
        rw [hsplit]
        generalize hs : tRun (St.init cap) as = s at *
        have hlen : ([] : List (Nat × Nat)).length < s.cap := by rw [h5]; exact hcap
        simp only [tRun, List.foldl_cons, List.foldl_nil, tStep, tPush, h4, hlen, if_true, h2,
          List.nil_append, set_same, h3, List.erase_cons_head, List.length_cons, h1]
        refine ⟨trivial, trivial, trivial, trivial, h5, ?_⟩
        intro i
        simp only [set]
        split
        · exact .inr rfl
        · exact h6 i
  obtain ⟨as, h1, h2, h3, _, _, h6⟩ := key n
  exact ⟨as, h1, h2, h3, h6⟩

end Verif.CallChan

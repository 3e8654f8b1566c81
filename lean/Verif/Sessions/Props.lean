import Verif.Sessions.Runs
/-!
C107-C110: sessions of an account.
-/
namespace Verif.Sessions
open AMap

/-- A connected session has logged in, as the account. -/
theorem ConnectedAs.login {m : Mgr} (hb : Base m) {i : Nat} {c : Cid} (h : m.ConnectedAs i c) :
    ∃ s, m.sess[i]? = some s ∧ s.ended = false ∧ s.conn = true ∧ s.rcid = some c := by
  obtain ⟨s, hs, he, hst, hc⟩ := h
  have hL := hb.loc i s hs
  have hcn := hL.st hst he
  refine ⟨s, hs, he, hcn, ?_⟩
  cases e : s.rcid with
  | none => exact absurd e (hL.conn hcn)
  | some c' =>
    have := hL.cid he c' e
    rw [hc] at this
    exact this.symm

/-! ### C107 -/

/-- C107 for executions in which no SYN waits. Missing: see the counterexample and the next theorem. -/
theorem C107_one_per_account_partial {evs : List Ev} {m : Mgr} (h : RunWith Mgr.Calm evs m) : OnePerAccount m := by
  intro i j c hi hj
  have hI := h.calm
  obtain ⟨s, hs, he, hcn, hr⟩ := ConnectedAs.login hI.base hi
  obtain ⟨s', hs', he', hcn', hr'⟩ := ConnectedAs.login hI.base hj
  exact Option.some.inj ((hI.onl i s c hs he hcn hr).1.symm.trans (hI.onl j s' c hs' he' hcn' hr').1)

/-- C107 for one account, whatever happens to others, when SYNs for it wait for the end of an earlier session, as long as no
other SYN for it is let through in the meantime. -/
theorem C107_one_session_partial {evs : List Ev} {m : Mgr} {c : Cid} (hc : c ≠ 0)
    (h : RunWith (fun m => m.Orderly c) evs m) {i j : Nat} (hi : m.ConnectedAs i c) (hj : m.ConnectedAs j c) : i = j := by
  have hI := h.orderly hc
  obtain ⟨s, hs, he, hcn, hr⟩ := ConnectedAs.login hI.base hi
  obtain ⟨s', hs', he', hcn', hr'⟩ := ConnectedAs.login hI.base hj
  exact Option.some.inj ((hI.onl i s hs he hcn hr).symm.trans (hI.onl j s' hs' he' hcn' hr'))

/-- Two sessions are connected as one account: one waited for the end of an earlier session, the other one came right after
that end. -/
theorem C107_counterexample : ∃ evs m, Run evs m ∧ RunWith Mgr.Clean evs m ∧ ¬ OnePerAccount m := by
  refine ⟨raceEvs, _, run_of (by decide), runWith_of (fun _ _ => Mgr.clean_of) (by decide), ?_⟩
  intro h
  have := h 1 2 7 ⟨_, rfl, rfl, rfl, rfl⟩ ⟨_, rfl, rfl, rfl, rfl⟩
  cases this

example : RunWith Mgr.Calm calmEvs (Mgr.init.steps calmEvs) ∧ (Mgr.init.steps calmEvs).ConnectedAs 2 7 ∧
    (Mgr.init.steps calmEvs).ConnectedAs 1 8 :=
  ⟨runWith_of (fun _ _ => Mgr.calm_of) (by decide), ⟨_, rfl, rfl, rfl, rfl⟩, ⟨_, rfl, rfl, rfl, rfl⟩⟩

example : RunWith (fun m => m.Orderly 7) waitEvs (Mgr.init.steps waitEvs) ∧ (Mgr.init.steps waitEvs).ConnectedAs 2 7 ∧
    (Mgr.init.steps waitEvs).ConnectedAs 1 8 :=
  ⟨runWith_of (p := fun m => m.orderlyB 7) (fun _ _ => Mgr.orderly_of) (by decide), ⟨_, rfl, rfl, rfl, rfl⟩,
    ⟨_, rfl, rfl, rfl, rfl⟩⟩

/-! ### C108 -/

theorem C108_own_keys_partial {evs : List Ev} {m : Mgr} (h : RunWith Mgr.Calm evs m) : OwnKeys m := by
  intro i c hi
  have hI := h.calm
  obtain ⟨s, hs, he, hcn, hr⟩ := ConnectedAs.login hI.base hi
  exact (hI.onl i s c hs he hcn hr).2

theorem C108_keys_partial {evs : List Ev} {m : Mgr} {c : Cid} (hc : c ≠ 0)
    (h : RunWith (fun m => m.Orderly c) evs m) {i : Nat} (hi : m.ConnectedAs i c) : m.crypto.get? c = some i := by
  have hI := h.orderly hc
  obtain ⟨s, hs, he, hcn, hr⟩ := ConnectedAs.login hI.base hi
  exact hI.keys i s (.inl (hI.onl i s hs he hcn hr)) hs he hr

/-- A connected session is left with the keys of another one. -/
theorem C108_counterexample : ∃ evs m, Run evs m ∧ RunWith Mgr.Clean evs m ∧ ¬ OwnKeys m := by
  refine ⟨raceEvs, _, run_of (by decide), runWith_of (fun _ _ => Mgr.clean_of) (by decide), ?_⟩
  intro h
  have := h 1 7 ⟨_, rfl, rfl, rfl, rfl⟩
  revert this
  decide

/-! ### C109 -/

theorem C109_reachable_partial {evs : List Ev} {m : Mgr} (h : RunWith Mgr.Calm evs m) : Reachable m := by
  intro i c hi
  have hI := h.calm
  obtain ⟨s, hs, he, hcn, hr⟩ := ConnectedAs.login hI.base hi
  exact (hI.onl i s c hs he hcn hr).1

theorem C109_found_partial {evs : List Ev} {m : Mgr} {c : Cid} (hc : c ≠ 0)
    (h : RunWith (fun m => m.Orderly c) evs m) {i : Nat} (hi : m.ConnectedAs i c) : m.online.get? c = some i := by
  have hI := h.orderly hc
  obtain ⟨s, hs, he, hcn, hr⟩ := ConnectedAs.login hI.base hi
  exact hI.onl i s hs he hcn hr

/-- What is found is never a session that is over, when no client says after its login that it failed and no session that is
logged in panics. -/
theorem C109_none_stale_partial {evs : List Ev} {m : Mgr} (h : RunWith Mgr.Clean evs m) : NoneStale m := by
  intro i c hi
  obtain ⟨s, hs, ho, hc, -⟩ := h.fresh c i hi
  exact ⟨s, hs, ho, hc⟩

/-- A connected session is not found. -/
theorem C109_counterexample_unreachable : ∃ evs m, Run evs m ∧ RunWith Mgr.Clean evs m ∧ ¬ Reachable m := by
  refine ⟨raceEvs, _, run_of (by decide), runWith_of (fun _ _ => Mgr.clean_of) (by decide), ?_⟩
  intro h
  have := h 1 7 ⟨_, rfl, rfl, rfl, rfl⟩
  revert this
  decide

/-- A session that is over is found. -/
theorem C109_counterexample_stale : ∃ evs m, RunWith Mgr.Calm evs m ∧ ¬ NoneStale m := by
  refine ⟨failEvs, _, runWith_of (fun _ _ => Mgr.calm_of) (by decide), ?_⟩
  intro h
  obtain ⟨s, hs, ho, -⟩ := h 0 7 (by decide)
  have : s = _ := (Option.some.inj hs).symm
  subst this
  revert ho
  decide

/-- The same after a panic. -/
theorem C109_counterexample_panic : ∃ evs m, RunWith Mgr.Calm evs m ∧ ¬ NoneStale m ∧ ∀ ev ∈ evs, ∀ i, ev ≠ .failure i := by
  refine ⟨loginEvs 0 1 7 ++ [.finish 0 true], _, runWith_of (fun _ _ => Mgr.calm_of) (by decide), ?_, ?_⟩
  rotate_left
  · intro ev hev i e
    subst e
    simp [loginEvs] at hev
  intro h
  obtain ⟨s, hs, ho, -⟩ := h 0 7 (by decide)
  have : s = _ := (Option.some.inj hs).symm
  subst this
  revert ho
  decide

example : RunWith Mgr.Clean waitEvs (Mgr.init.steps waitEvs) ∧ (Mgr.init.steps waitEvs).online.get? 7 = some 2 ∧
    (Mgr.init.steps waitEvs).online.get? 8 = some 1 :=
  ⟨runWith_of (fun _ _ => Mgr.clean_of) (by decide), by decide, by decide⟩

/-! ### C110 -/

/-- Reservations are not from the future. -/
theorem Run.past {evs : List Ev} {m : Mgr} (h : Run evs m) : ∀ c t, m.resv.get? c = some t → t ≤ m.now := by
  induction h with
  | init =>
    intro c t e
    simp [Mgr.init] at e
  | @step evs m ev hr ha ih =>
    have hb := hr.base
    have hfresh : ∀ c t, m.fresh.get? c = some t → t ≤ m.now := fun c t e => ih c t (sub_filter hb.nresv e).1
    have herase : ∀ x c t, (m.resv.erase x).get? c = some t → t ≤ m.now := fun x c t e => ih c t (sub_erase e).1
    have hclear : ∀ (m : Mgr) i a, (m.clearProv i a).resv = m.resv ∧ (m.clearProv i a).now = m.now := by
      intro m i a
      unfold Mgr.clearProv
      split <;> exact ⟨rfl, rfl⟩
    cases ev with
    | syn sid c' k =>
      simp only [Mgr.step]
      split
      · exact ih
      · split
        · exact ih
        · unfold Mgr.syn
          dsimp only
          split
          · split
            · exact hfresh
            · split
              · exact hfresh
              · split
                · exact hfresh
                · exact hfresh
          · split
            · exact hfresh
            · intro c t e
              have e : (m.fresh.insert c' m.now).get? c = some t := e
              rw [get?_insert] at e
              split at e
              · exact Nat.le_of_eq (Option.some.inj e).symm
              · exact hfresh c t e
    | timeout sid i =>
      simp only [Mgr.step]
      split
      · exact ih
      · split
        · exact herase _
        · exact ih
    | goOn sid i r =>
      simp only [Mgr.step]
      split
      · exact ih
      · split
        · unfold Mgr.goOn
          split
          · dsimp only
            split
            · exact ih
            · exact herase _
          · exact herase _
          · exact ih
        · exact ih
    | connect sid =>
      simp only [Mgr.step]
      split
      · exact ih
      · split
        · exact ih
        · split
          · exact ih
          · unfold Mgr.upgrade
            split <;> exact ih
    | regFail sid =>
      simp only [Mgr.step]
      split
      · exact ih
      · split
        · exact ih
        · rw [(hclear _ _ _).1, (hclear _ _ _).2]
          exact ih
    | finish sid panic =>
      cases hs : m.sess[sid]? with
      | none =>
        have : m.step (.finish sid panic) = m := by
          simp only [Mgr.step]
          rw [hs]
        rw [this]
        exact ih
      | some s =>
        cases hov : s.over with
        | true =>
          have : m.step (.finish sid panic) = m := by
            simp only [Mgr.step]
            rw [hs]
            simp only [hov, if_true]
          rw [this]
          exact ih
        | false =>
          rw [finish_eq hs hov]
          obtain ⟨r1, -, r3, -⟩ := cleared_rest m sid s panic
          intro c t e
          show t ≤ (m.cleared sid s panic).now
          rw [r3]
          have e : (m.cleared sid s panic).resv.get? c = some t := e
          rw [r1] at e
          exact ih c t e
    | tick n =>
      intro c t e
      exact Nat.le_trans (ih c t e) (Nat.le_add_right _ _)
    | accept addr => exact ih
    | wake sid i =>
      simp only [Mgr.step]
      split
      · exact ih
      · split <;> exact ih
    | connected sid i ok =>
      simp only [Mgr.step]
      split
      · exact ih
      · split
        · split <;> exact ih
        · exact ih
    | disc sid =>
      simp only [Mgr.step]
      split
      · exact ih
      · split <;> exact ih
    | reset sid =>
      simp only [Mgr.step]
      split
      · exact ih
      · split <;> exact ih
    | failure sid =>
      simp only [Mgr.step]
      split
      · exact ih
      · split <;> exact ih

/-- Nothing is found for an account that nobody uses. -/
theorem find_free {evs : List Ev} {m : Mgr} {c : Cid} (h : RunWith Mgr.Clean evs m) (hc : c ≠ 0) (hf : m.Free c) (k : Nat) :
    m.find c k = none := by
  cases e : m.find c k with
  | none => rfl
  | some j =>
    have hb := h.run.base
    rcases find_some hc e with ho | ⟨a, s, ha, hs, hsc⟩
    · obtain ⟨s, hs, hov, hsc, -⟩ := h.fresh c j ho
      exact absurd hsc (hf s (List.mem_of_getElem? hs) hov).1
    · obtain ⟨s', hs', -, hov, -⟩ := hb.prov a j (get?_of_mem hb.nprov ha)
      obtain rfl : s = s' := Option.some.inj (hs.symm.trans hs')
      exact absurd hsc (hf s (List.mem_of_getElem? hs) hov).1

theorem fresh_none {m : Mgr} {c : Cid} (hb : Base m) (h : ∀ t, m.resv.get? c = some t → t + ttl ≤ m.now) :
    m.fresh.get? c = none := by
  cases e : m.fresh.get? c with
  | none => rfl
  | some t =>
    obtain ⟨h1, h2⟩ := sub_filter hb.nresv e
    have := h t h1
    simp only [decide_eq_true_eq] at h2
    omega

theorem syn_through {m : Mgr} {sid : Nat} {c : Cid} {k : Nat} {s : Sess} (hs : m.sess[sid]? = some s)
    (he : s.ended = false) (hst : s.st = .provisional) (hf : m.find c k = none) (hr : m.fresh.get? c = none) :
    m.step (.syn sid c k) =
      { m with resv := m.fresh.insert c m.now, sess := m.sess.set sid (s.suspend (.syn c (some m.now))) } := by
  simp only [Mgr.step, hs, he, hst]
  unfold Mgr.syn
  have hfeq : ({ m with resv := m.fresh } : Mgr).find c k = none := hf
  simp [hfeq, hr, Mgr.set]

/-- C110 for executions that are clean, and unless there is a reservation of the last 30 seconds. Missing: the others, see
the counterexamples. -/
theorem C110_let_through_partial {evs : List Ev} {m : Mgr} {c : Cid} {sid : Nat} (h : RunWith Mgr.Clean evs m) (hc : c ≠ 0)
    (hf : m.Free c) (hn : m.New sid) (hr : ∀ t, m.resv.get? c = some t → t + 30 ≤ m.now) : m.LetThrough sid c := by
  obtain ⟨s, hs, es, -⟩ := hn
  intro k
  have he : s.ended = false := by rw [es]
  have hst : s.st = .provisional := by rw [es]
  rw [syn_through hs he hst (find_free h hc hf k) (fresh_none h.run.base hr)]
  exact ⟨_, get_set_self hs, he, some m.now, List.mem_append_right _ (List.mem_singleton.mpr rfl)⟩

/-- It is let through 30 seconds later at the latest. -/
theorem C110_let_through_later_partial {evs : List Ev} {m : Mgr} {c : Cid} {sid : Nat} (h : RunWith Mgr.Clean evs m) (hc : c ≠ 0)
    (hf : m.Free c) (hn : m.New sid) : (m.step (.tick 30)).LetThrough sid c := by
  have h' : RunWith Mgr.Clean (evs ++ [.tick 30]) (m.step (.tick 30)) := h.step trivial trivial
  refine C110_let_through_partial h' hc hf hn ?_
  intro t e
  exact Nat.add_le_add_right (h.run.past c t e) 30

/-- And then the login of the client succeeds. -/
theorem C110_login_partial {evs : List Ev} {m : Mgr} {c : Cid} {sid : Nat} (h : RunWith Mgr.Clean evs m) (hc : c ≠ 0)
    (hf : m.Free c) (hn : m.New sid) (hr : ∀ t, m.resv.get? c = some t → t + 30 ≤ m.now) (k : Nat) :
    (m.steps [.syn sid c k, .goOn sid 0 .valid, .connect sid, .connected sid 0 true]).ConnectedAs sid c := by
  obtain ⟨s, hs, es, hp⟩ := hn
  have he : s.ended = false := by rw [es]
  have hst : s.st = .provisional := by rw [es]
  have hpd : s.pend = [] := by rw [es]
  have hrc : s.rcid = none := by rw [es]
  have hcn : s.conn = false := by rw [es]
  have hlt : sid < m.sess.length := (List.getElem?_eq_some_iff.mp hs).1
  simp only [Mgr.steps]
  rw [syn_through hs he hst (find_free h hc hf k) (fresh_none h.run.base hr)]
  simp [Mgr.step, Mgr.goOn, Mgr.upgrade, Mgr.set, Sess.suspend, hlt, he, hst, hpd, hrc, hcn, hp, Mgr.ConnectedAs]

/-- A connection for the account of which nothing is left keeps everybody out for 30 seconds. -/
theorem C110_counterexample_reservation : ∃ evs m, RunWith Mgr.Clean evs m ∧ m.Free 7 ∧ m.New 1 ∧ ¬ m.LetThrough 1 7 := by
  refine ⟨leakEvs, _, runWith_of (fun _ _ => Mgr.clean_of) (by decide), ?_, ⟨_, rfl, rfl, by decide⟩, ?_⟩
  · intro s hs ho
    have hs : s ∈ (Mgr.init.steps leakEvs).sess := hs
    have : (Mgr.init.steps leakEvs).sess = [{ addr := 1, st := .disconnecting, ended := true, over := true }, { addr := 2 }] := by
      decide
    rw [this] at hs
    simp only [List.mem_cons, List.not_mem_nil, or_false] at hs
    rcases hs with rfl | rfl
    · cases ho
    · exact ⟨by simp, by simp, by simp⟩
  · intro h
    obtain ⟨s, hs, he, -⟩ := h 0
    have : s = _ := (Option.some.inj hs).symm
    subst this
    revert he
    decide

/-- When a client has said after its login that it failed, one SYN of anybody is enough to lock the account forever: whatever
happens, nobody is ever connected as the account again. -/
theorem C110_counterexample_locked_out : ∃ evs m, Run evs m ∧ m.Free 7 ∧
    ∀ m', Later m m' → ∀ i, ¬ m'.ConnectedAs i 7 := by
  have hr : Run lockEvs (Mgr.init.steps lockEvs) := run_of (by decide)
  have hsess : ∀ s ∈ (Mgr.init.steps lockEvs).sess, s.over = true ∧ s.ended = true := by decide
  refine ⟨lockEvs, _, hr, ?_, ?_⟩
  · intro s hs ho
    rw [(hsess s hs).1] at ho
    cases ho
  · intro m' hl i
    refine Locked.nobody (z := 0) (Locked.later ⟨hr.base, by decide, rfl, by decide, by decide, by decide, ?_⟩ hl) i
    intro j s hs he
    rw [(hsess s (List.mem_of_getElem? hs)).2] at he
    cases he

example : RunWith Mgr.Clean (waitEvs ++ [.disc 2, .finish 2 false, .accept 9])
      (Mgr.init.steps (waitEvs ++ [.disc 2, .finish 2 false, .accept 9])) ∧
    (∀ s ∈ (Mgr.init.steps (waitEvs ++ [.disc 2, .finish 2 false, .accept 9])).sess, s.over = true ∨
      (s.cid ≠ some 7 ∧ s.rcid ≠ some 7 ∧ s.pend = [])) ∧
    (Mgr.init.steps (waitEvs ++ [.disc 2, .finish 2 false, .accept 9])).New 4 ∧
    (Mgr.init.steps (waitEvs ++ [.disc 2, .finish 2 false, .accept 9])).resv = [] :=
  ⟨runWith_of (fun _ _ => Mgr.clean_of) (by decide), by decide, ⟨_, rfl, rfl, by decide⟩, by decide⟩

end Verif.Sessions

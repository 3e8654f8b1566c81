import Verif.Timers.Lemmas
/-! Properties C134 and C135. -/
namespace Verif.Timers

/-! ### C134: the timers do not bring the session down -/

/-- If the group ids that are registered for one cid never decrease (and do not come near 2^64), the worker
never panics: whatever the functions return, whatever the order of expiry. Missing: ids registered for one
cid by two independent counters, which is what happens between two peers that send to each other (see
`C134_counterexample_panic`). -/
theorem C134_no_panic_partial (server : Bool) (rekeyPeriod : Nat) (acts : List Act)
    (hp : ∀ cid, (idsOf cid acts).Pairwise (· ≤ ·))
    (hup : ∀ cid, ∀ i ∈ idsOf cid acts, i + 10 + acts.length ≤ 2 ^ 64) :
    (run (start server rekeyPeriod) acts).panicked = false :=
  (inv_session server rekeyPeriod acts hp hup).alive

/-- Transfers in both directions of a session with the server: the client sends (cid 0) and receives (cid 7). -/
def bothWays : List Act :=
  [.insert 0 0 groupExpire, .insert 0 7 groupExpire, .insert 1 7 groupExpire, .insert 1 0 groupExpire,
   .tick 20000, .fire 0 .complete, .tick 40000, .fire 2 .complete, .fire 2 .incomplete, .fire 2 .complete,
   .tick 60000, .fire 3 .complete]

example : (∀ cid, (idsOf cid bothWays).Pairwise (· ≤ ·)) ∧
    (∀ cid, ∀ i ∈ idsOf cid bothWays, i + 10 + bothWays.length ≤ 2 ^ 64) ∧
    (run (start false 480000) bothWays).calls.length = 5 ∧
    (run (start false 480000) bothWays).ended = false := by
  refine ⟨?_, ?_, by decide, by decide⟩
  · intro cid
    simp only [bothWays, idsOf]
    by_cases h0 : cid = 0
    · subst h0; decide
    · by_cases h7 : cid = 7
      · subst h7; decide
      · simp [Ne.symm h0, Ne.symm h7]
  · intro cid i hm
    have : i ≤ 1 := by
      simp only [bothWays, idsOf] at hm
      by_cases h0 : cid = 0
      · subst h0; simp at hm; omega
      · by_cases h7 : cid = 7
        · subst h7; simp at hm; omega
        · simp [Ne.symm h0, Ne.symm h7] at hm
    show i + 10 + 12 ≤ 2 ^ 64
    omega

/-- In any running session, at any moment: if for some cid a group id `g + 1` is registered and then `g`, both
timers get the same key; when the second group has ended (its function returns `Complete`), the deadline of the
first one finds no function and the task of the worker panics, which ends the session. Between peers the two
ids come from two counters (the group that is sent and the group that is received have the same cid), so
that an honest exchange does this; a dishonest peer can do it with two group headers. -/
theorem C134_counterexample_panic (s : St) (hl : s.panicked = false) (he : s.ended = false) (cid g : Nat)
    (hg : g + 1 + 10 + s.rolling < 2 ^ 64) :
    (run s [.insert (g + 1) cid groupExpire, .insert g cid groupExpire, .tick groupExpire,
      .fire (s.expirations.length + 1) .complete, .fire s.expirations.length .incomplete]).panicked = true := by
  have e1 : ordinaryKey (g + 1) cid s.rolling = .periodic (g + 11 + s.rolling) cid := by
    unfold ordinaryKey reservedIdx usize
    rw [Nat.mod_eq_of_lt (by omega)]
  have e2 : ordinaryKey g cid (s.rolling + 1) = .periodic (g + 11 + s.rolling) cid := by
    unfold ordinaryKey reservedIdx usize
    rw [Nat.mod_eq_of_lt (by omega)]
    congr 1
    omega
  simp [run, step, insertOrdinary, insertReserved, expire, hl, he, e1, e2, List.eraseIdx_append,
    show ¬ (s.expirations.length + 1 < s.expirations.length) by omega]

/-- The smallest honest case: two peers exchange files, this side has sent two groups (0, 1) when the first group
of the peer (0) arrives. Sixty seconds later the transfers are over, and the session is lost. -/
theorem C134_counterexample_honest :
    (run (start false 480000)
      [.insert 0 7 groupExpire, .insert 1 7 groupExpire, .insert 0 7 groupExpire, .tick groupExpire,
       .fire 4 .complete, .fire 4 .complete, .fire 4 .complete]).panicked = true := by
  decide

/-! ### C135: every timer runs its own function, at its time, until it is done -/

/-- Under the condition of C134: what runs at a deadline is the function of the timer the deadline belongs to, and
as long as the session goes on every timer that was registered either has returned `Complete` (the one-shot has
run) or has a deadline, at which its function runs. Missing: ids that decrease, as for C134. -/
theorem C135_own_function_partial (server : Bool) (rekeyPeriod : Nat) (acts : List Act)
    (hp : ∀ cid, (idsOf cid acts).Pairwise (· ≤ ·))
    (hup : ∀ cid, ∀ i ∈ idsOf cid acts, i + 10 + acts.length ≤ 2 ^ 64) :
    let s := run (start server rekeyPeriod) acts
    (∀ c ∈ s.calls, c.owner = c.ran) ∧
    (s.ended = false → ∀ n < s.next,
      (∃ c ∈ s.calls, c.ran = n ∧ (c.res = .complete ∨ n = 0)) ∨
      (∃ j e, s.expirations[j]? = some e ∧ e.owner = n ∧ ∀ d r, e.deadline ≤ s.now + d →
        (run s [.tick d, .fire j r]).calls = s.calls ++ [{ owner := n, ran := n, at_ := s.now + d, res := r }])) := by
  intro s
  have h : Inv s := inv_session server rekeyPeriod acts hp hup
  refine ⟨h.calls, ?_⟩
  intro he n hn
  rcases h.pend he n hn with hd | ⟨e, hm, ho⟩
  · exact Or.inl hd
  · refine Or.inr ?_
    obtain ⟨j, hj⟩ := List.mem_iff_getElem?.1 hm
    refine ⟨j, e, hj, ho, ?_⟩
    intro d r hdue
    obtain ⟨t, ht, hto⟩ := h.owner e hm
    have hc : ∀ s' : St, s'.entries = s.entries → s'.calls = s.calls → s'.now = s.now + d →
        (expire s' e r).calls = s.calls ++ [{ owner := n, ran := n, at_ := s.now + d, res := r }] := by
      intro s' h1 h2 h3
      unfold expire
      rw [h1, ht]
      simp only [h2, h3, hto, ho]
      split
      · rfl
      · split <;> rfl
    have hnot : ¬ (s.now + d < e.deadline) := by omega
    simp only [run, step, h.alive, he, hj, Bool.or_self, Bool.false_eq_true, if_false, hnot]
    exact hc _ rfl rfl rfl

/-- Under the condition of C134 up to its registration, and whatever happens afterwards: a timer is not run before
its time is over. -/
theorem C135_not_early_partial (server : Bool) (rekeyPeriod : Nat) (pre post : List Act) (idx cid p : Nat)
    (hp : ∀ c, (idsOf c (pre ++ [.insert idx cid p])).Pairwise (· ≤ ·))
    (hup : ∀ c, ∀ i ∈ idsOf c (pre ++ [.insert idx cid p]), i + 11 + pre.length ≤ 2 ^ 64)
    (he : (run (start server rekeyPeriod) pre).ended = false) :
    let s := run (start server rekeyPeriod) pre
    ∀ c ∈ (run s (.insert idx cid p :: post)).calls, c.ran = s.next → s.now + p ≤ c.at_ := by
  intro s
  have hids : ∀ c (as : List Act) (b : Act), ∃ l, idsOf c (as ++ [b]) = idsOf c as ++ l := by
    intro c as b
    induction as with
    | nil => exact ⟨_, rfl⟩
    | cons a as ih =>
      obtain ⟨l, hl⟩ := ih
      cases a with
      | tick d => exact ⟨l, hl⟩
      | fire j r => exact ⟨l, hl⟩
      | insert i c' q =>
        refine ⟨l, ?_⟩
        simp only [List.cons_append, idsOf]
        split
        · rw [hl, List.cons_append]
        · exact hl
  have hpre : Inv s := by
    refine inv_session server rekeyPeriod pre ?_ ?_
    · intro c
      obtain ⟨l, hl⟩ := hids c pre (.insert idx cid p)
      have := hp c
      rw [hl] at this
      exact (List.pairwise_append.1 this).1
    · intro c i hm
      obtain ⟨l, hl⟩ := hids c pre (.insert idx cid p)
      have := hup c i (by rw [hl]; exact List.mem_append_left _ hm)
      omega
  have hnow : Inv (run s [.insert idx cid p]) := by
    have := inv_session server rekeyPeriod (pre ++ [.insert idx cid p]) hp (by
      intro c i hm
      have := hup c i hm
      simp only [List.length_append, List.length_cons, List.length_nil]
      omega)
    rw [run_append] at this
    exact this
  have he' : s.ended = false := he
  have hstep : run s [.insert idx cid p] = insertOrdinary s idx cid p := by
    simp only [run, step, hpre.alive, he', Bool.or_self, Bool.false_eq_true, if_false]
  rw [hstep] at hnow
  have hlast : NotBefore s.next (s.now + p) (insertOrdinary s idx cid p) := by
    refine ⟨?_, ?_, Nat.lt_succ_self _⟩
    · have hnd := hnow.nodup he'
      simp only [insertOrdinary, insertReserved, List.map_append, List.map_cons, List.map_nil] at hnd
      rw [List.nodup_append] at hnd
      intro e hm t ht hn
      simp only [insertOrdinary, insertReserved] at hm ht
      rcases List.mem_append.1 hm with hm | hm
      · have hne : e.key ≠ ordinaryKey idx cid s.rolling :=
          hnd.2.2 e.key (List.mem_map_of_mem hm) _ (List.mem_singleton.2 rfl)
        rw [AMap.get?_insert_ne _ _ hne] at ht
        -- an older timer has a smaller number
        exfalso
        obtain ⟨t', ht', ho⟩ := hnow.owner e (List.mem_append_left _ hm)
        have hlt : e.owner < s.next := (old_run pre _ (old_start server rekeyPeriod)).1 e hm
        simp only [insertOrdinary, insertReserved] at ht'
        rw [AMap.get?_insert_ne _ _ hne, ht] at ht'
        cases ht'
        omega
      · rw [List.mem_singleton.1 hm]
        exact Nat.le_refl _
    · intro c hc hr
      -- nothing has run with this number yet
      exfalso
      have hlt : c.ran < s.next := (old_run pre _ (old_start server rekeyPeriod)).2.2 c hc
      omega
  have : run s (.insert idx cid p :: post) = run (insertOrdinary s idx cid p) post := by
    show run (run s [.insert idx cid p]) post = _
    rw [hstep]
  rw [this]
  exact (notBefore_run post _ hlast).2.1

/-- In any running session with `s.next` timers so far: the timer of `g + 1` is overwritten by the timer of `g` of
the same cid, and its function is never run, whatever happens. -/
theorem C135_counterexample_overwritten (s : St) (hl : s.panicked = false) (he : s.ended = false) (cid g : Nat)
    (hg : g + 1 + 10 + s.rolling < 2 ^ 64) (hnew : Old s)
    (post : List Act) :
    ∀ c ∈ (run s (.insert (g + 1) cid groupExpire :: .insert g cid groupExpire :: post)).calls, c.ran ≠ s.next := by
  have e1 : ordinaryKey (g + 1) cid s.rolling = .periodic (g + 11 + s.rolling) cid := by
    unfold ordinaryKey reservedIdx usize
    rw [Nat.mod_eq_of_lt (by omega)]
  have e2 : ordinaryKey g cid (s.rolling + 1) = .periodic (g + 11 + s.rolling) cid := by
    unfold ordinaryKey reservedIdx usize
    rw [Nat.mod_eq_of_lt (by omega)]
    congr 1
    omega
  have hlost : Lost s.next (step (step s (.insert (g + 1) cid groupExpire)) (.insert g cid groupExpire)) := by
    simp only [step, hl, he, Bool.or_self, Bool.false_eq_true, if_false, insertOrdinary, insertReserved, e1, e2]
    refine ⟨?_, by show s.next < s.next + 1 + 1; omega, ?_⟩
    · intro x hx
      simp only [AMap.insert, AMap.erase, List.mem_cons, List.mem_filter] at hx
      rcases hx with rfl | ⟨rfl | hx, hk⟩
      · simp only
        omega
      · simp at hk
      · have := hnew.2.1 x hx.1
        omega
    · intro c hc
      have := hnew.2.2 c hc
      omega
  exact (lost_run post _ hlost).2.2

/-- The condition on the numbers holds in every session. -/
example (server : Bool) (rp : Nat) (acts : List Act) : Old (run (start server rp) acts) :=
  old_run acts _ (old_start server rp)

end Verif.Timers

import Verif.HolePunch.Mail
/-!
Hole punching: what holds of every attempt, and what does not.
-/
namespace Verif.HolePunch

variable {R : Nat → Nat → Prop} {w : Net} {n m : Nat}

/-! ### C111: both endpoints use the same pair of sockets -/

theorem Inv.halfAgree (h : Inv R w) {s : Bool} {i j k l : Nat} (h1 : (w.get s).result = some (i, j))
    (h2 : (w.get (!s)).result = some (k, l)) (hc : (w.get s).commanded = none) :
    l = i ∧ (k = j ∨ Got (w.get s) i k) ∧ Got (w.get (!s)) j i := by
  have f1 := (h.half s).resu _ h1
  have f2 := (h.both s).2.resu _ h2
  have d1 := (h.half s).fin _ f1
  have g := (h.half s).f2 i j f1 hc
  cases hc' : (w.get (!s)).commanded with
  | none => exact ((h.half s).uniq _ _ f1 f2 hc hc').elim
  | some v =>
    obtain ⟨l', r'⟩ := v
    have e := (h.both s).2.f1 k l l' r' f2 hc'
    rcases (h.both s).2.cmds l' r' (.inl hc') with e' | e' | e'
    · rw [f1] at e'
      have e1 := e'.2.1
      cases e1
      exact ⟨e.1, e.2, g.2⟩
    · rw [(h.half s).done d1] at e'
      cases e'
    · rw [d1] at e'
      cases e'.2.2.2.2.1

theorem Inv.someWinner (h : Inv R w) {s : Bool} {v v' : Nat × Nat} (h1 : (w.get s).result = some v)
    (h2 : (w.get (!s)).result = some v') : (w.get s).commanded = none ∨ (w.get (!s)).commanded = none := by
  have f1 := (h.half s).resu _ h1
  have d1 := (h.half s).fin _ f1
  cases hc : (w.get (!s)).commanded with
  | none => exact .inr rfl
  | some v =>
    obtain ⟨l, r⟩ := v
    left
    rcases (h.both s).2.cmds l r (.inl hc) with e | e | e
    · exact e.2.2
    · rw [(h.half s).done d1] at e
      cases e
    · exact e.2.2.2.1

/-- Whatever packets arrive, for every number of sockets: when both endpoints get a socket, one of them sends to the very socket
the other one uses. -/
theorem C111_one_side_agrees (hr : Reach n m w) {i j k l : Nat} (h1 : w.a.result = some (i, j)) (h2 : w.b.result = some (k, l)) :
    l = i ∨ k = j := by
  have h := hr.any.inv
  rcases h.someWinner (s := false) h1 h2 with e | e
  · exact .inl (h.halfAgree (s := false) h1 h2 e).1
  · exact .inr (h.halfAgree (s := true) h2 h1 e).1.symm

/-- When no puncher can be reached by two punchers of the peer, the two sockets belong together. -/
theorem C111_agree_partial (hm : Matching R) (hr : ReachR R n m w) : Agree w := by
  intro i j k l h1 h2
  have h := hr.inv
  rcases h.someWinner (s := false) h1 h2 with e | e
  · obtain ⟨e1, e2, e3⟩ := h.halfAgree (s := false) h1 h2 e
    refine ⟨?_, e1⟩
    rcases e2 with e2 | e2
    · exact e2
    · exact (h.match hm (s := false) e2 e3).symm
  · obtain ⟨e1, e2, e3⟩ := h.halfAgree (s := true) h2 h1 e
    refine ⟨e1.symm, ?_⟩
    rcases e2 with e2 | e2
    · exact e2.symm
    · exact h.match hm (s := true) e2 e3

/-- One socket on each side is such a case. -/
theorem C111_single_agree (hr : Reach 1 1 w) : Agree w := by
  have hm : Matching (fun i j => i = 0 ∧ j = 0) := ⟨by grind, by grind⟩
  have len : ∀ {w}, Reach 1 1 w → w.a.ps.length = 1 ∧ w.b.ps.length = 1 := by
    intro w h
    have : ∀ s, (w.get s).ps.length = 1 := by
      induction h with
      | init => intro s; cases s <;> rfl
      | step ev _ ih =>
        rename_i w _
        intro s
        rw [Net.length_step]
        exact ih s
    exact ⟨this false, this true⟩
  refine C111_agree_partial (R := fun i j => i = 0 ∧ j = 0) hm (n := 1) (m := 1) ?_
  induction hr with
  | init => exact .init
  | @step w ev hr ih =>
    cases ev with
    | syn s i j =>
      by_cases hx : i = 0 ∧ j = 0
      · exact .step _ ih (by cases s <;> simp [Ev.Along, hx.1, hx.2])
      · have : w.step (.syn s i j) = w := by
          have hl : ∀ s, (w.get s).ps.length = 1 := by
            intro s
            cases s
            · exact (len hr).1
            · exact (len hr).2
          have e1 := hl s
          have e2 := hl (!s)
          simp only [Net.step]
          split
          · rename_i p hp
            have := (List.getElem?_eq_some_iff.mp hp).1
            rw [if_neg]
            intro hc
            exact hx ⟨by omega, by omega⟩
          · rfl
        rw [this]
        exact ih
    | _ => exact .step _ ih trivial

/-- A socket that is returned leads to a puncher that can be reached. -/
theorem C111_reached (hr : ReachR R n m w) {i j : Nat} :
    (w.a.result = some (i, j) → R i j) ∧ (w.b.result = some (i, j) → R j i) := by
  have h := hr.inv
  have key : ∀ s : Bool, (w.get s).result = some (i, j) → Rel R s i j := by
    intro s hres
    have f1 := (h.half s).resu _ hres
    have grel : ∀ {a b : Nat}, Got (w.get (!s)) b a → Rel R s a b := by
      rintro a b ⟨q, hq, e⟩
      exact rel_not ((h.both s).2.rel b q a hq e)
    cases hc : (w.get s).commanded with
    | none => exact grel ((h.half s).f2 i j f1 hc).2
    | some v =>
      obtain ⟨l, r⟩ := v
      obtain ⟨e1, e2⟩ := (h.half s).f1 i j l r f1 hc
      subst e1
      rcases e2 with e2 | e2
      · subst e2
        obtain ⟨p, hp, e⟩ := h.got (.inl hc)
        exact (h.half s).rel _ p _ hp e
      · exact grel e2
  exact ⟨key false, key true⟩

/-! ### C112: one winner, no panic -/

theorem C112_no_panic (hr : Reach n m w) : w.a.panicked = false ∧ w.b.panicked = false :=
  ⟨(hr.any.inv.half false).ok.1, (hr.any.inv.half true).ok.1⟩

theorem C112_candidate_once (hr : Reach n m w) : w.a.twice = false ∧ w.b.twice = false :=
  ⟨(hr.any.inv.half false).ok.2, (hr.any.inv.half true).ok.2⟩

/-- Two endpoints that have chosen their sockets have not both chosen freely. -/
theorem C112_one_winner (hr : Reach n m w) (ha : w.a.final.isSome) (hb : w.b.final.isSome) :
    w.a.commanded.isSome ∨ w.b.commanded.isSome := by
  obtain ⟨v, hv⟩ := Option.isSome_iff_exists.mp ha
  obtain ⟨v', hv'⟩ := Option.isSome_iff_exists.mp hb
  cases e : w.a.commanded with
  | some _ => exact .inl rfl
  | none =>
    cases e' : w.b.commanded with
    | some _ => exact .inr rfl
    | none => exact ((hr.any.inv.half false).uniq v v' hv hv' e e').elim

/-- The branch that gives up because the poller and the rebuilder have failed is never taken. -/
theorem C112_poller_stays (hr : Reach n m w) : w.a.poller = true ∧ w.b.poller = true :=
  ⟨(hr.any.alive false).poller, (hr.any.alive true).poller⟩

/-! ### C113: an endpoint that is told to use a socket can use it -/

theorem C113_told_can_return_partial (hm : Matching R) (hr : ReachR R n m w) {s : Bool} {l r : Nat}
    (hc : (w.get s).commanded = some (l, r)) (hd : (w.get s).done = false) : CanReturn w s (l, r) :=
  (IsTold.reaches hm hr ⟨hc, hd⟩).canReturn

/-! ### C114: when one endpoint has won, the other one can follow -/

theorem C114_loser_can_follow_partial (hm : Matching R) (hr : ReachR R n m w) {s : Bool} {l r : Nat}
    (hf : (w.get s).final = some (r, l)) (hc : (w.get s).commanded = none)
    (hd : (w.get (!s)).done = false) (hrd : (w.get (!s)).reader = true) (hfl : (w.get (!s)).failure = false) :
    ∃ evs : List Ev, (∀ ev ∈ evs, ev.Quiet) ∧ ((w.steps evs).get s).result = some (r, l) ∧
      ((w.steps evs).get (!s)).result = some (l, r) := by
  have hi := hr.inv
  have hdone := (hi.half s).fin _ hf
  have hv := ((hi.half s).f2 r l hf hc).1
  have told : ∃ evs : List Ev, (∀ ev ∈ evs, ev.Quiet) ∧ IsTold (!s) l r (w.steps evs) := by
    rcases (hr.mails s).won l r hv hf hc with e | e | e
    · rw [hd] at e
      cases e
    · exact ⟨[], by simp, ⟨e, hd⟩⟩
    · exact Mails.learn (s := !s) _ hr rfl hd hrd (by rw [Bool.not_not]; exact hc) e (.inl hfl)
  obtain ⟨evs, q1, ht⟩ := told
  have hr1 := hr.steps evs q1
  obtain ⟨evs', q2, hfin⟩ := IsTold.reaches hm hr1 ht
  have hr2 := hr1.steps evs' q2
  have hd2 := Net.done_steps (Net.done_steps hdone evs) evs'
  have := Fin.both hr2 hfin (by rw [Bool.not_not]; exact hd2)
  rw [Bool.not_not] at this
  refine ⟨evs ++ (evs' ++ [.finish (!s), .finish s]), ?_, ?_⟩
  · intro e he
    rcases List.mem_append.mp he with he | he
    · exact q1 e he
    · rcases List.mem_append.mp he with he | he
      · exact q2 e he
      · simp at he
        rcases he with rfl | rfl <;> trivial
  · rw [Net.steps_append, Net.steps_append]
    exact ⟨this.2, this.1⟩

end Verif.HolePunch

import Verif.ChanEnd.Spec

namespace Verif.ChanEnd

theorem run_append (s : State) (as bs : List Act) :
    run s (as ++ bs) = ((run (run s as).1 bs).1, (run s as).2 ++ (run (run s as).1 bs).2) := by
  induction as generalizing s with
  | nil => simp [run]
  | cons a as ih => simp [run, ih]

theorem gotOrd_append (xs ys : List Out) : gotOrd (xs ++ ys) = gotOrd xs ++ gotOrd ys := by
  simp [gotOrd]

theorem gotUdp_append (xs ys : List Out) : gotUdp (xs ++ ys) = gotUdp xs ++ gotUdp ys := by
  simp [gotUdp]

theorem seenOrd_append (xs ys : List Out) : seenOrd (xs ++ ys) = seenOrd xs ++ seenOrd ys := by
  simp [seenOrd]

theorem seenUdp_append (xs ys : List Out) : seenUdp (xs ++ ys) = seenUdp xs ++ seenUdp ys := by
  simp [seenUdp]

/-- The ordered channel takes messages. -/
def State.takes (s : State) : Prop := s.conn = true ∧ s.ord.held = true ∧ s.ord.closed = false

instance (s : State) : Decidable s.takes := by unfold State.takes; infer_instance

/-- What a step does to the ordered channel. -/
theorem ord_step (s : State) (a : Act) :
    ((step s a).1.takes → s.takes) ∧
    ((∃ m, a = .ordIn m ∧ (step s a).2 = [] ∧
        (step s a).1.ord.queue = s.ord.queue ++ (if s.takes then [m] else [])) ∨
     ((∀ m, a ≠ .ordIn m) ∧
      ((∃ m, gotOrd (step s a).2 = [m] ∧ s.ord.queue = m :: (step s a).1.ord.queue) ∨
       (gotOrd (step s a).2 = [] ∧
          ((step s a).1.ord.queue = s.ord.queue ∨
           ((step s a).1.ord.queue = [] ∧ ¬ (step s a).1.takes)))))) := by
  cases a with
  | ordIn m =>
    simp only [step, State.takes, Half.push]
    by_cases hc : s.conn = true <;> by_cases hh : s.ord.held = true <;>
      by_cases hd : s.ord.closed = true <;> simp_all
  | pollOrd =>
    simp only [step, State.takes, Half.poll, Half.next, gotOrd]
    by_cases hh : s.ord.held = true <;> by_cases hal : s.alive = true <;> cases hq : s.ord.queue <;>
      by_cases hd : s.ord.closed = true <;> simp_all
  | dropOrd =>
    simp only [step, State.takes, Half.drop, gotOrd]
    by_cases hh : s.ord.held = true <;> cases hk : s.kind <;> simp_all
  | udpIn m => simp only [step, State.takes, gotOrd]; split <;> simp_all
  | openUdp => simp only [step, State.takes, gotOrd]; split <;> simp_all
  | closeUdp => simp only [step, State.takes, gotOrd]; split <;> simp_all
  | deactivate => simp only [step, State.takes, gotOrd]; split <;> simp_all
  | remove => simp only [step, State.takes, gotOrd]; split <;> simp_all
  | pollUdp => simp only [step, State.takes, gotOrd]; split <;> simp_all
  | recv n =>
    simp only [step, State.takes, gotOrd]
    split
    · cases s.udp.next.1 <;> simp only [recvOut] <;> (try split) <;> simp_all
    · simp_all
  | dropUdp =>
    simp only [step, State.takes, gotOrd]
    split
    · cases hk : s.kind <;> simp_all
    · simp_all

theorem ord_prefix (s : State) (as : List Act) :
    gotOrd (run s as).2 <+: s.ord.queue ++ (if s.takes then handedOrd as else []) := by
  induction as generalizing s with
  | nil => simp [run, gotOrd]
  | cons a as ih =>
    have hi := ih (step s a).1
    obtain ⟨ht, h⟩ := ord_step s a
    simp only [run, gotOrd_append]
    rcases h with ⟨m, rfl, ho, hq⟩ | ⟨hn, h⟩
    · rw [hq] at hi
      rw [ho]
      simp only [gotOrd, List.filterMap_nil, List.nil_append]
      refine hi.trans ?_
      by_cases h1 : s.takes <;> by_cases h2 : (step s (.ordIn m)).1.takes
      · simp [h1, h2, handedOrd]
      · simp only [h1, h2, if_true, if_false, handedOrd, List.append_nil]
        exact ⟨handedOrd as, by simp [handedOrd]⟩
      · exact absurd (ht h2) h1
      · simp [h1, h2]
    · have hh : handedOrd (a :: as) = handedOrd as := by
        cases a <;> simp_all [handedOrd]
      rw [hh]
      rcases h with ⟨m, hg, hq⟩ | ⟨hg, hq | ⟨hq, hnt⟩⟩
      · rw [hg, hq]
        simp only [List.cons_append, List.nil_append, List.cons_prefix_cons, true_and]
        refine hi.trans ?_
        by_cases h1 : s.takes <;> by_cases h2 : (step s a).1.takes <;> simp_all
      · rw [hg]
        rw [hq] at hi
        refine hi.trans ?_
        by_cases h1 : s.takes <;> by_cases h2 : (step s a).1.takes <;> simp_all
      · rw [hg]
        rw [hq, if_neg hnt] at hi
        simp only [List.append_nil, List.prefix_nil] at hi
        rw [List.nil_append, hi]; exact List.nil_prefix

/-- What a step does to the unordered channel. -/
theorem udp_step (s : State) (a : Act) :
    (gotUdp (step s a).2 ++ (step s a).1.udp.queue).Sublist (s.udp.queue ++ handedUdp [a]) := by
  cases a with
  | udpIn m =>
    simp only [step, Half.push, gotUdp, handedUdp]
    by_cases hc : s.conn = true <;> by_cases hh : s.udp.held = true <;>
      by_cases hd : s.udp.closed = true <;> simp_all
  | pollUdp =>
    simp only [step, Half.poll, Half.next, gotUdp, handedUdp]
    by_cases hh : s.udp.held = true <;> by_cases hal : s.alive = true <;> cases hq : s.udp.queue <;>
      by_cases hd : s.udp.closed = true <;> simp_all
  | recv n =>
    simp only [step, Half.next, gotUdp, handedUdp]
    by_cases hh : s.udp.held = true <;> cases hq : s.udp.queue <;>
      by_cases hd : s.udp.closed = true <;> simp_all [recvOut]
    all_goals (rename_i m q; by_cases hn : n = m.length <;> simp_all)
  | dropUdp =>
    simp only [step, Half.drop, gotUdp, handedUdp]
    by_cases hh : s.udp.held = true <;> cases hk : s.kind <;> simp_all
  | ordIn m => simp only [step, gotUdp, handedUdp]; split <;> simp_all
  | openUdp => simp only [step, gotUdp, handedUdp]; split <;> simp_all
  | closeUdp => simp only [step, gotUdp, handedUdp]; split <;> simp_all
  | deactivate => simp only [step, gotUdp, handedUdp]; split <;> simp_all
  | remove => simp only [step, gotUdp, handedUdp]; split <;> simp_all
  | pollOrd => simp only [step, gotUdp, handedUdp]; split <;> simp_all
  | dropOrd =>
    simp only [step, gotUdp, handedUdp]
    split
    · cases hk : s.kind <;> simp_all
    · simp_all

theorem udp_sublist (s : State) (as : List Act) :
    (gotUdp (run s as).2).Sublist (s.udp.queue ++ handedUdp as) := by
  induction as generalizing s with
  | nil => simp [run, gotUdp]
  | cons a as ih =>
    have hi := ih (step s a).1
    have hs := udp_step s a
    simp only [run, gotUdp_append]
    have e : handedUdp (a :: as) = handedUdp [a] ++ handedUdp as := by
      simp only [handedUdp, ← List.filterMap_append]; rfl
    rw [e, ← List.append_assoc]
    refine ((List.Sublist.refl _).append hi).trans ?_
    rw [← List.append_assoc]
    exact hs.append (List.Sublist.refl _)

/-- A run in which nothing ends the ordered channel. -/
theorem ord_live (s : State) (as : List Act) (hs : s.takes) (ha : s.alive = true)
    (hn : ∀ a ∈ as, a.ends = false) :
    (run s as).1.takes ∧ (run s as).1.alive = true ∧
    gotOrd (run s as).2 ++ (run s as).1.ord.queue = s.ord.queue ++ handedOrd as ∧
    .done ∉ seenOrd (run s as).2 := by
  induction as generalizing s with
  | nil => simp [run, gotOrd, handedOrd, seenOrd, hs, ha]
  | cons a as ih =>
    have key : (step s a).1.takes ∧ (step s a).1.alive = true ∧
        gotOrd (step s a).2 ++ (step s a).1.ord.queue = s.ord.queue ++ handedOrd [a] ∧
        .done ∉ seenOrd (step s a).2 := by
      have hna := hn a (by simp)
      obtain ⟨hc, hh, hd⟩ := hs
      cases a with
      | ordIn m => simp [step, hc, hh, hd, Half.push, State.takes, gotOrd, handedOrd, seenOrd, ha]
      | pollOrd =>
        simp only [step, Half.poll, Half.next, gotOrd, handedOrd, seenOrd, State.takes]
        cases hq : s.ord.queue <;> simp_all
      | udpIn m =>
        simp [step, hc, hh, hd, State.takes, gotOrd, handedOrd, seenOrd, ha]
      | openUdp =>
        simp only [step, State.takes, gotOrd, handedOrd, seenOrd]; split <;> simp_all
      | closeUdp =>
        simp [step, hc, hh, hd, State.takes, gotOrd, handedOrd, seenOrd, ha]
      | deactivate => simp [Act.ends] at hna
      | remove => simp [Act.ends] at hna
      | dropOrd => simp [Act.ends] at hna
      | pollUdp =>
        simp only [step, State.takes, gotOrd, handedOrd, seenOrd]; split <;> simp_all
      | recv n =>
        simp only [step, State.takes, gotOrd, handedOrd, seenOrd]
        split
        · cases s.udp.next.1 <;> simp only [recvOut] <;> (try split) <;> simp_all
        · simp_all
      | dropUdp =>
        simp only [step, State.takes, gotOrd, handedOrd, seenOrd]
        split
        · cases hk : s.kind <;> simp_all
        · simp_all
    obtain ⟨k1, k2, k3, k4⟩ := key
    obtain ⟨i1, i2, i3, i4⟩ := ih _ k1 k2 (fun b hb => hn b (by simp [hb]))
    refine ⟨i1, i2, ?_, ?_⟩
    · have e : handedOrd (a :: as) = handedOrd [a] ++ handedOrd as := by
        simp only [handedOrd, ← List.filterMap_append]; rfl
      simp only [run, gotOrd_append]
      rw [e, ← List.append_assoc, ← k3, List.append_assoc, i3, List.append_assoc]
    · simp only [run, seenOrd_append, List.mem_append, not_or]
      exact ⟨k4, i4⟩

/-- Polling a channel that lives takes what is queued. -/
theorem poll_all (s : State) (hs : s.takes) (ha : s.alive = true) :
    gotOrd (run s (List.replicate s.ord.queue.length .pollOrd)).2 = s.ord.queue := by
  generalize hq : s.ord.queue = q
  induction q generalizing s with
  | nil => simp [run, gotOrd]
  | cons m q ih =>
    obtain ⟨hc, hh, hd⟩ := hs
    have h1 : step s .pollOrd = ({ s with ord := { s.ord with queue := q } }, [.ord (.item m)]) := by
      simp [step, hh, ha, Half.poll, Half.next, hq]
    simp only [List.length_cons, List.replicate_succ, run, h1, gotOrd_append]
    rw [ih { s with ord := { s.ord with queue := q } } ⟨hc, hh, hd⟩ ha rfl]
    simp [gotOrd]

/-- The ordered channel has ended. -/
def State.ordOver (s : State) : Prop :=
  s.alive = false ∨ (s.ord.queue = [] ∧ s.ord.closed = true)

/-- The unordered channel has ended. -/
def State.udpOver (s : State) : Prop :=
  s.udpMade = true ∧ (s.alive = false ∨ (s.udp.queue = [] ∧ s.udp.closed = true))

theorem ordOver_step (s : State) (a : Act) :
    (s.ordOver → (step s a).1.ordOver ∧ ∀ p ∈ seenOrd (step s a).2, p = .done) ∧
    (.done ∈ seenOrd (step s a).2 → (step s a).1.ordOver ∧ seenOrd (step s a).2 = [.done]) := by
  cases a with
  | ordIn m =>
    simp only [step, State.ordOver, Half.push, seenOrd]
    by_cases hc : s.conn = true <;> by_cases hh : s.ord.held = true <;>
      by_cases hd : s.ord.closed = true <;> simp_all
  | pollOrd =>
    simp only [step, State.ordOver, Half.poll, Half.next, seenOrd]
    by_cases hh : s.ord.held = true <;> by_cases hal : s.alive = true <;> cases hq : s.ord.queue <;>
      by_cases hd : s.ord.closed = true <;> simp_all
  | dropOrd =>
    simp only [step, State.ordOver, Half.drop, seenOrd]
    by_cases hh : s.ord.held = true <;> cases hk : s.kind <;> simp_all
    all_goals (intro h; rcases h with h | h <;> simp_all)
  | udpIn m => simp only [step, State.ordOver, seenOrd]; split <;> simp_all
  | openUdp => simp only [step, State.ordOver, seenOrd]; split <;> simp_all
  | closeUdp => simp only [step, State.ordOver, seenOrd]; split <;> simp_all
  | deactivate => simp only [step, State.ordOver, seenOrd]; split <;> simp_all
  | remove => simp only [step, State.ordOver, seenOrd]; split <;> simp_all
  | pollUdp => simp only [step, State.ordOver, seenOrd]; split <;> simp_all
  | recv n =>
    simp only [step, State.ordOver, seenOrd]
    split
    · cases s.udp.next.1 <;> simp only [recvOut] <;> (try split) <;> simp_all
    · simp_all
  | dropUdp =>
    simp only [step, State.ordOver, seenOrd]
    split
    · cases hk : s.kind <;> simp_all
    · simp_all

theorem ordOver_run (s : State) (as : List Act) (h : s.ordOver) :
    ∀ p ∈ seenOrd (run s as).2, p = .done := by
  induction as generalizing s with
  | nil => simp [run, seenOrd]
  | cons a as ih =>
    obtain ⟨h1, h2⟩ := (ordOver_step s a).1 h
    simp only [run, seenOrd_append, List.mem_append]
    rintro p (hp | hp)
    · exact h2 p hp
    · exact ih _ h1 p hp

/-- An unordered half that the program has was made. -/
def State.wf (s : State) : Prop := s.udp.held = true → s.udpMade = true

theorem wf_step (s : State) (a : Act) (h : s.wf) : (step s a).1.wf := by
  unfold State.wf at *
  cases a with
  | udpIn m => simp only [step, Half.push]; (repeat' split) <;> simp_all
  | openUdp => simp only [step]; split <;> simp_all
  | pollUdp =>
    simp only [step, Half.poll, Half.next]
    by_cases hh : s.udp.held = true <;> by_cases hal : s.alive = true <;> cases hq : s.udp.queue <;>
      by_cases hd : s.udp.closed = true <;> simp_all
  | recv n =>
    simp only [step, Half.next]
    by_cases hh : s.udp.held = true <;> cases hq : s.udp.queue <;>
      by_cases hd : s.udp.closed = true <;> simp_all
  | dropUdp =>
    simp only [step, Half.drop]
    by_cases hh : s.udp.held = true <;> cases hk : s.kind <;> simp_all
  | dropOrd =>
    simp only [step, Half.drop]
    by_cases hh : s.ord.held = true <;> cases hk : s.kind <;> simp_all
  | ordIn m => simp only [step]; split <;> simp_all
  | closeUdp => simp only [step]; split <;> simp_all
  | deactivate => simp only [step]; split <;> simp_all
  | remove => simp only [step]; split <;> simp_all
  | pollOrd => simp only [step]; split <;> simp_all

theorem udpOver_step (s : State) (a : Act) (hw : s.wf) :
    (s.udpOver → (step s a).1.udpOver ∧ ∀ p ∈ seenUdp (step s a).2, p = .done) ∧
    (.done ∈ seenUdp (step s a).2 → (step s a).1.udpOver ∧ seenUdp (step s a).2 = [.done]) := by
  unfold State.wf at hw
  cases a with
  | udpIn m =>
    simp only [step, State.udpOver, Half.push, seenUdp]
    by_cases hc : s.conn = true <;> by_cases hh : s.udp.held = true <;>
      by_cases hd : s.udp.closed = true <;> simp_all
  | pollUdp =>
    simp only [step, State.udpOver, Half.poll, Half.next, seenUdp]
    by_cases hh : s.udp.held = true <;> by_cases hal : s.alive = true <;> cases hq : s.udp.queue <;>
      by_cases hd : s.udp.closed = true <;> simp_all
  | recv n =>
    simp only [step, State.udpOver, Half.next, seenUdp]
    by_cases hh : s.udp.held = true <;> by_cases hal : s.alive = true <;> cases hq : s.udp.queue <;>
      by_cases hd : s.udp.closed = true <;> simp_all [recvOut]
    all_goals (rename_i m q; by_cases hn : n = m.length <;> simp_all)
  | dropUdp =>
    simp only [step, State.udpOver, Half.drop, seenUdp]
    by_cases hh : s.udp.held = true <;> cases hk : s.kind <;> simp_all
    all_goals (intro h; rcases h with h | h <;> simp_all)
  | dropOrd =>
    simp only [step, State.udpOver, Half.drop, seenUdp]
    by_cases hh : s.ord.held = true <;> cases hk : s.kind <;> simp_all
  | openUdp => simp only [step, State.udpOver, seenUdp]; split <;> simp_all
  | ordIn m => simp only [step, State.udpOver, seenUdp]; split <;> simp_all
  | closeUdp =>
    simp only [step, State.udpOver, seenUdp]
    split <;> simp_all
    rintro _ (h | h) <;> simp_all
  | deactivate => simp only [step, State.udpOver, seenUdp]; split <;> simp_all
  | remove => simp only [step, State.udpOver, seenUdp]; split <;> simp_all
  | pollOrd => simp only [step, State.udpOver, seenUdp]; split <;> simp_all

theorem udpOver_run (s : State) (as : List Act) (hw : s.wf) (h : s.udpOver) :
    ∀ p ∈ seenUdp (run s as).2, p = .done := by
  induction as generalizing s with
  | nil => simp [run, seenUdp]
  | cons a as ih =>
    obtain ⟨h1, h2⟩ := (udpOver_step s a hw).1 h
    simp only [run, seenUdp_append, List.mem_append]
    rintro p (hp | hp)
    · exact h2 p hp
    · exact ih _ (wf_step s a hw) h1 p hp

theorem dead_step (s : State) (a : Act) (hs : s.alive = false) : (step s a).1.alive = false := by
  cases a <;> simp only [step] <;> (repeat' split) <;> simp_all

theorem dead_run (s : State) (as : List Act) (hs : s.alive = false) :
    (run s as).1.alive = false := by
  induction as generalizing s with
  | nil => exact hs
  | cons a as ih => exact ih _ (dead_step s a hs)

theorem dead_udp (s : State) (bs : List Act) (hs : s.alive = false) :
    ∀ p ∈ seenUdp (run s bs).2, p = .done := by
  induction bs generalizing s with
  | nil => intro p hp; simp [run, seenUdp] at hp
  | cons b bs ih =>
    intro p hp
    simp only [run, seenUdp_append, List.mem_append] at hp
    rcases hp with hp | hp
    · clear ih
      cases b with
      | pollUdp =>
        simp only [step, Half.poll, hs] at hp
        split at hp <;> simp_all [seenUdp]
      | recv n =>
        simp only [step] at hp
        split at hp
        · revert hp
          cases s.udp.next.1 <;> simp only [recvOut] <;> (try split) <;> simp [seenUdp]
        · simp [seenUdp] at hp
      | _ => simp only [step] at hp <;> (repeat' split at hp) <;> simp_all [seenUdp]
    · exact ih _ (dead_step s b hs) p hp

end Verif.ChanEnd

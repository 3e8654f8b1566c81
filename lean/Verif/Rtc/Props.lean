import Verif.Rtc.Lemmas

/-! # Properties C244-C247 -/

namespace Verif.Rtc

/-! ## C244: the kernel gets the channel of an end once, when its hole punch is over -/

theorem C244_given (es : List Event) :
    let s := run init es
    (s.a.over → s.a.given = 1) ∧ (¬ s.a.over → s.a.given = 0) ∧
      (s.b.over → s.b.given = 1) ∧ (¬ s.b.over → s.b.given = 0) := by
  have key : ∀ e : End, EndOk e → (e.over → e.given = 1) ∧ (¬ e.over → e.given = 0) := by
    intro e h
    obtain ⟨i, p, r, q, g⟩ := e
    cases p <;> simp_all [EndOk, End.over]
  have h := ok_run es
  have h1 := key _ h.1
  have h2 := key _ h.2
  exact ⟨h1.1, h1.2, h2.1, h2.2⟩

/-- What is over stays as it is. -/
theorem C244_final (es fs : List Event) :
    ((run init es).a.over → (run init (es ++ fs)).a.phase = (run init es).a.phase) ∧
      ((run init es).b.over → (run init (es ++ fs)).b.phase = (run init es).b.phase) := by
  rw [run_append]
  exact over_run fs _

/-- An end whose own step fails falls back to the relayed connection at once. -/
theorem C244_fails (s : State) :
    (s.a.phase = .making → (step s (.make true false)).a.phase = .relayed) ∧
      (s.b.phase = .answering → (step s (.make false false)).b.phase = .relayed) ∧
      (s.a.phase = .wantAnswer → s.a.inbox ≠ [] → (step s (.recv true false)).a.phase = .relayed) ∧
      (s.b.phase = .wantOffer → s.b.inbox ≠ [] → (step s (.recv false false)).b.phase = .relayed) ∧
      (s.a.phase = .opening → (step s (.error true)).a.phase = .relayed) ∧
      (s.b.phase = .opening → (step s (.error false)).b.phase = .relayed) := by
  refine ⟨?_, ?_, ?_, ?_, ?_, ?_⟩
  · intro h; simp [step, End.make, h, End.giveUp]
  · intro h; simp [step, End.make, h, End.giveUp]
  · intro h hi
    obtain ⟨x, q, hq⟩ := List.exists_cons_of_ne_nil hi
    simp [step, End.recv, h, hq, End.giveUp]
  · intro h hi
    obtain ⟨x, q, hq⟩ := List.exists_cons_of_ne_nil hi
    simp [step, End.recv, h, hq, End.giveUp]
  · intro h; simp [step, End.error, h, End.giveUp]
  · intro h; simp [step, End.error, h, End.giveUp]

/-- So does an end that takes a signal of the other kind. -/
theorem C244_wrong (s : State) (ok : Bool) :
    (∀ q, s.a.phase = .wantAnswer → s.a.inbox = .offer :: q →
        (step s (.recv true ok)).a.phase = .relayed) ∧
      (∀ q, s.b.phase = .wantOffer → s.b.inbox = .answer :: q →
        (step s (.recv false ok)).b.phase = .relayed) := by
  refine ⟨?_, ?_⟩ <;> intro q h hi <;> simp [step, End.recv, h, hi, End.giveUp]

/-- Nothing is left behind by a hole punch that is over. -/
theorem C244_clean (es : List Event) :
    ((run init es).a.over → (run init es).a.registered = false ∧ (run init es).a.inbox = []) ∧
      ((run init es).b.over → (run init es).b.registered = false ∧ (run init es).b.inbox = []) :=
  ⟨fun h => (clean_run es).1 (.inr h), fun h => (clean_run es).2 (.inr h)⟩

example : (run init smooth).a.given = 1 ∧ (run init smooth).b.given = 1 := by decide

/-! ## C245: whatever becomes of the hole punch, each end gets its channel -/

/-- Refuted: when the responder gives up before it has answered, or needs a relay itself, the
initiator waits for ever, for all that may follow. -/
theorem C245_counterexample_silent (s : State) (ha : s.a.phase = .wantAnswer) (hi : s.a.inbox = [])
    (ht : s.toA = []) (hb : s.b.phase = .relayed) (es : List Event) : (run s es).a = s.a :=
  (stuck_run es s ⟨ha, hi, ht, .inl hb⟩).2

/-- Refuted: an offer that is handled before the responder has begun is lost, and both wait. -/
theorem C245_counterexample_early (es : List Event) :
    let s := run init [.begin true false, .make true true, .arrive false]
    (run s es).a.given = 0 ∧ (run s es).a.phase = .wantAnswer ∧ (run s es).b.phase ≠ .direct := by
  have h := stuck_run es (run init [.begin true false, .make true true, .arrive false])
    ⟨rfl, rfl, rfl, .inr ⟨.inl rfl, rfl, rfl, rfl⟩⟩
  refine ⟨by rw [h.2]; rfl, by rw [h.2]; rfl, ?_⟩
  obtain ⟨_, _, _, hb⟩ := h.1
  rcases hb with hb | ⟨hb | hb, _⟩ <;> rw [hb] <;> simp

/-- Refuted: with both ends ready, and a network through which the data channel does not come,
neither kernel ever learns of the connection that the server relays. -/
theorem C245_counterexample_blocked (es : List Event) (hq : ∀ e ∈ es, Quiet e) :
    let s := run init (smooth.take 8)
    (run s es).a.given = 0 ∧ (run s es).b.given = 0 := by
  have h := run_keeps (P := fun s => s.a.phase = .opening ∧ s.b.phase = .opening) (Q := Quiet)
    waiting_step es (run init (smooth.take 8)) hq ⟨rfl, rfl⟩
  have hk := ok_run (smooth.take 8 ++ es)
  rw [run_append] at hk
  constructor
  · have := hk.1; simp only [EndOk, h.1] at this; exact this
  · have := hk.2; simp only [EndOk, h.2] at this; exact this

/-- The responder fails to make its answer, or needs a relay: such states are reached. -/
example : let s := run init [.begin true false, .begin false false, .make true true, .arrive false,
      .recv false true, .make false false]
    s.a.phase = .wantAnswer ∧ s.a.inbox = [] ∧ s.toA = [] ∧ s.b.phase = .relayed ∧
      s.b.given = 1 := by decide
example : let s := run init [.begin true false, .begin false true, .make true true, .arrive false]
    s.a.phase = .wantAnswer ∧ s.a.inbox = [] ∧ s.toA = [] ∧ s.b.phase = .relayed := by decide

/-- Partial: when nothing fails and the offer is not handled before the responder has begun, both
ends can get a direct connection from wherever they are.  What is missing: failures, a network that
lets nothing through, and offers that come too early. -/
theorem C245_partial (es fs : List Event) (hes : ∀ e ∈ es, Good e) (hfs : ∀ e ∈ fs, Good e)
    (hearly : Event.arrive false ∉ es) :
    ∃ gs, (∀ e ∈ gs, Good e) ∧
      let s := run init (es ++ .begin false false :: fs ++ gs)
      s.a.phase = .direct ∧ s.b.phase = .direct := by
  have h1 : ∀ (es : List Event) (s : State), s ∈ chain → (∀ e ∈ es, Good e) →
      Event.arrive false ∉ es → run s es ∈ chain := by
    intro es
    induction es with
    | nil => intro s hs _ _; exact hs
    | cons e es ih =>
      intro s hs hg ha
      refine ih (step s e) (chain_closed s hs e (good_mem e (hg e (List.mem_cons_self ..)))
        (.inl fun h => ha (by rw [h]; exact List.mem_cons_self ..))).1
        (fun x hx => hg x (List.mem_cons_of_mem _ hx)) (fun h => ha (List.mem_cons_of_mem _ h))
  have h2 : ∀ (fs : List Event) (s : State), s ∈ chain → s.b.phase ≠ .before →
      (∀ e ∈ fs, Good e) → run s fs ∈ chain ∧ (run s fs).b.phase ≠ .before := by
    intro fs
    induction fs with
    | nil => intro s hs hb _; exact ⟨hs, hb⟩
    | cons e fs ih =>
      intro s hs hb hg
      have h := chain_closed s hs e (good_mem e (hg e (List.mem_cons_self ..))) (.inr hb)
      exact ih (step s e) h.1 (h.2 hb) (fun x hx => hg x (List.mem_cons_of_mem _ hx))
  have h3 := h1 es init (by decide) hes hearly
  have h4 := chain_closed _ h3 (.begin false false) (by decide) (.inl (by simp))
  have h5 := h2 fs _ h4.1 (chain_begin _ h3) hfs
  obtain ⟨n, _, hn⟩ := chain_ends _ h5.1 h5.2
  refine ⟨smooth.drop n, ?_, ?_⟩
  · intro e he
    have he := List.mem_of_mem_drop he
    simp only [smooth, List.mem_cons, List.not_mem_nil, or_false] at he
    rcases he with rfl | rfl | rfl | rfl | rfl | rfl | rfl | rfl | rfl | rfl <;> simp [Good]
  · rw [run_append, run_append]
    exact hn

/-! ## C246: both ends agree whether the connection is direct -/

/-- Refuted: an error after one end has opened its data channel, and they disagree for ever. -/
theorem C246_counterexample (es : List Event) :
    let s := run init (smooth.take 9 ++ .error false :: es)
    s.a.phase = .direct ∧ s.b.phase = .relayed := by
  have h := over_run es (run init (smooth.take 9 ++ [.error false]))
  have e1 : run init (smooth.take 9 ++ .error false :: es) =
      run (run init (smooth.take 9 ++ [.error false])) es := by
    rw [← run_append, List.append_assoc]; rfl
  rw [e1]
  exact ⟨(h.1 (.inl rfl)).trans rfl, (h.2 (.inr rfl)).trans rfl⟩

/-- Partial: without such errors an end is direct only if the other is, or has all it needs.
What is missing: errors of the data channel. -/
theorem C246_partial (es : List Event) (h : ∀ w, Event.error w ∉ es) :
    let s := run init es
    (s.a.phase = .direct → s.b.phase ≠ .relayed) ∧ (s.b.phase = .direct → s.a.phase ≠ .relayed) := by
  have hA := run_keeps (P := Agree) (Q := fun e => ∀ w, e ≠ .error w)
    (fun s e he hs => agree_step s e he hs) es init
    (fun e he w hw => h w (by rw [← hw]; exact he)) (by simp [Agree, init, newEnd])
  refine ⟨fun hd hr => ?_, fun hd hr => ?_⟩
  · rcases (set_iff _).mp (hA.1 hd) with hx | hx <;> rw [hr] at hx <;> cases hx
  · rcases (set_iff _).mp (hA.2 hd) with hx | hx <;> rw [hr] at hx <;> cases hx

/-! ## C247: a direct connection is one that both ends made -/

theorem C247_made (es : List Event)
    (h : (run init es).a.phase = .direct ∨ (run init es).b.phase = .direct) :
    Event.make true true ∈ es ∧ Event.make false true ∈ es := by
  have hc := cause_reach es
  rcases h with h | h
  · have := hc.a.phase; rw [h] at this; exact this
  · have := hc.b.phase; rw [h] at this; exact this

/-- Neither end takes a signal for what it is not. -/
theorem C247_signals (es : List Event) :
    (∀ x ∈ (run init es).a.inbox, x = .answer) ∧ (∀ x ∈ (run init es).b.inbox, x = .offer) :=
  ⟨fun x hx => ((cause_reach es).a.inbox x hx).1, fun x hx => ((cause_reach es).b.inbox x hx).1⟩

/-- No signal is there that was not made. -/
theorem C247_sent (es : List Event) :
    ((run init es).a.inbox ++ (run init es).toA ≠ [] → Event.make false true ∈ es) ∧
      ((run init es).b.inbox ++ (run init es).toB ≠ [] → Event.make true true ∈ es) := by
  have hc := cause_reach es
  constructor
  · intro h
    obtain ⟨x, hx⟩ := List.exists_mem_of_ne_nil _ h
    rcases List.mem_append.mp hx with hx | hx
    · exact (hc.a.inbox x hx).2
    · exact (hc.toA x hx).2
  · intro h
    obtain ⟨x, hx⟩ := List.exists_mem_of_ne_nil _ h
    rcases List.mem_append.mp hx with hx | hx
    · exact (hc.b.inbox x hx).2
    · exact (hc.toB x hx).2

/-- There is at most one signal each way. -/
theorem C247_once (es : List Event) :
    (run init es).a.inbox.length + (run init es).toA.length ≤ 1 ∧
      (run init es).b.inbox.length + (run init es).toB.length ≤ 1 :=
  ⟨(once_run es).toA.2, (once_run es).toB.2⟩

example : (run init smooth).a.phase = .direct ∧ (run init smooth).b.phase = .direct := by decide

end Verif.Rtc

import Verif.Inbound.Lemmas

/-! # Properties C240-C243 -/

namespace Verif.Inbound

/-! ## C240: every packet is worked on once, in turn, and no more of them at a time than the limit -/

/-- Every packet that arrived is in just one place. -/
theorem C240_conserved (limit : Nat) (timers : Bool) (es : List Event) (p : Pkt) :
    let s := run (init limit timers) es
    (arrived es).count p = s.wire.count p + s.busy.count p + s.done.count p + s.lapsed.count p :=
  (inv_reach limit timers es).count p

/-- Packets are begun in the order of their arrival. -/
theorem C240_order (limit : Nat) (timers : Bool) (es : List Event) :
    (run (init limit timers) es).begun ++ (run (init limit timers) es).wire = arrived es :=
  (inv_reach limit timers es).order

theorem C240_limit (limit : Nat) (timers : Bool) (es : List Event) :
    (run (init limit timers) es).busy.length ≤ limit := by
  have := (inv_reach limit timers es).limit
  rwa [(fixed_run es _).1] at this

/-- A hole punch that has ended got its packet from the other side. -/
theorem C240_waited (limit : Nat) (timers : Bool) (es : List Event) (p : Pkt) (k : Nat)
    (hp : p ∈ (run (init limit timers) es).done) (hk : p.work = .waits k) :
    ∃ q ∈ (run (init limit timers) es).done, q.work = .token k :=
  (inv_reach limit timers es).token k ((inv_reach limit timers es).waited p hp k hk)

/-- Without time limits none is given up. -/
theorem C240_kept (limit : Nat) (es : List Event) : (run (init limit false) es).lapsed = [] := by
  have key : ∀ (es : List Event) (s : State), s.timers = false → (run s es).lapsed = s.lapsed := by
    intro es
    induction es with
    | nil => intro s _; rfl
    | cons e es ih =>
      intro s hs
      refine (ih (step s e) ((fixed_step s e).2.trans hs)).trans ?_
      cases e with
      | arrive p => rfl
      | take => simp only [step, take]; (repeat' split) <;> rfl
      | finish p => simp only [step, finish]; split <;> rfl
      | lapse p => simp [step, lapse, hs]
  exact key es _ rfl

example : let s := run (init 2 false) [.arrive ⟨1, .waits 7⟩, .arrive ⟨2, .token 7⟩, .take, .take,
      .finish ⟨1, .waits 7⟩, .finish ⟨2, .token 7⟩, .finish ⟨1, .waits 7⟩]
    s.done = [⟨2, .token 7⟩, ⟨1, .waits 7⟩] ∧ s.busy = [] := by decide

/-! ## C241: whatever arrives is worked on in the end -/

/-- Refuted, for every limit, for nodes without time limits: after as many hole punches as the
limit, and with the packets that all of them wait for already there, nothing is ever done again,
whatever else arrives. -/
theorem C241_counterexample (limit : Nat) : ∃ es : List Event,
    (∀ k < limit, (⟨k, .waits k⟩ : Pkt) ∈ arrived es ∧ (⟨k, .token k⟩ : Pkt) ∈ arrived es) ∧
    ∀ fs, (run (init limit false) (es ++ fs)).done = [] ∧
      (run (init limit false) (es ++ fs)).begun.length = limit := by
  refine ⟨(starts limit ++ answers limit).map .arrive ++ List.replicate limit .take, ?_, ?_⟩
  · intro k hk
    rw [arrived_append, arrived_map, arrived_takes, List.append_nil]
    exact ⟨List.mem_append_left _ (starts_mem limit k hk),
      List.mem_append_right _ (answers_mem limit k hk)⟩
  · intro fs
    have h1 : run (init limit false)
        ((starts limit ++ answers limit).map .arrive ++ List.replicate limit .take) =
        ⟨limit, false, answers limit, starts limit, [], [], [], starts limit⟩ := by
      rw [run_append, arrives]
      have := takes (starts limit) (answers limit)
        { init limit false with wire := (init limit false).wire ++ (starts limit ++ answers limit) }
        (by simp [init]) (by simp [init, starts_length])
      rw [starts_length] at this
      rw [this]
      simp [init]
    have hj : Jammed ⟨limit, false, answers limit, starts limit, [], [], [], starts limit⟩ := by
      refine ⟨by simp [starts_length], ?_⟩
      intro p hp
      obtain ⟨k, hk⟩ := starts_waits limit p hp
      exact ⟨k, hk, by simp⟩
    rw [run_append, h1]
    have h2 := jam_run fs _ hj (.inl rfl)
    exact ⟨h2.2.1, by rw [h2.2.2.2]; exact starts_length limit⟩

/-- The limit of the code. -/
theorem C241_counterexample_code : ∃ es : List Event,
    ∀ fs, (run (init inboundLimit false) (es ++ fs)).done = [] ∧
      (run (init inboundLimit false) (es ++ fs)).begun.length = 64 := by
  obtain ⟨es, _, h⟩ := C241_counterexample inboundLimit
  exact ⟨es, h⟩

/-- Refuted from every state in which as many wait. -/
theorem C241_counterexample_jam (s : State) (h : Jammed s) (ht : s.timers = false)
    (fs : List Event) : (run s fs).done = s.done ∧ (run s fs).begun = s.begun :=
  ⟨(jam_run fs s h (.inl ht)).2.1, (jam_run fs s h (.inl ht)).2.2.2⟩

/-- Partial: as long as fewer hole punches than the limit have arrived, the session can by itself
work on everything, except for hole punches whose other side has not sent its packet.  What is
missing: as many hole punches as the limit. -/
theorem C241_partial (limit : Nat) (timers : Bool) (es : List Event)
    (h : punches (arrived es) < limit) :
    ∃ fs, (∀ e ∈ fs, Own e) ∧
      let s := run (init limit timers) (es ++ fs)
      s.wire = [] ∧ ∀ p ∈ s.busy, ∃ k, p.work = .waits k ∧ ∀ q ∈ arrived es, q.work ≠ .token k := by
  obtain ⟨fs, ho, hr⟩ := work_on _ (run (init limit timers) es) es (inv_reach limit timers es)
    (Nat.le_refl _) (by rw [(fixed_run es _).1]; exact h)
  refine ⟨fs, ho, ?_⟩
  have hi := inv_reach limit timers (es ++ fs)
  rw [run_append]
  rw [run_append] at hi
  refine ⟨hr.1, ?_⟩
  intro p hp
  have hn := hr.2 p hp
  cases hw : p.work with
  | quick => simp [ready, hw] at hn
  | token k => simp [ready, hw] at hn
  | waits k =>
    refine ⟨k, rfl, ?_⟩
    intro q hq hqk
    have hk : k ∉ (run (run (init limit timers) es) fs).tokens := by
      intro hm
      simp only [ready, hw] at hn
      rw [List.contains_iff_mem.mpr hm] at hn
      cases hn
    have hc := hi.count q
    rw [arrived_append, arrived_own fs ho, List.append_nil, hr.1] at hc
    have hpos : 0 < (arrived es).count q := List.count_pos_iff.mpr hq
    have hb : q ∉ (run (run (init limit timers) es) fs).busy := by
      intro hm
      have := hr.2 q hm
      simp [ready, hqk] at this
    rw [List.count_eq_zero_of_not_mem hb, List.count_nil] at hc
    have hl : q ∉ (run (run (init limit timers) es) fs).lapsed := by
      rw [own_lapsed fs _ ho]
      exact lapsed_wait es limit timers q k hqk
    rw [List.count_eq_zero_of_not_mem hl] at hc
    have hd : q ∈ (run (run (init limit timers) es) fs).done :=
      List.count_pos_iff.mp (by omega)
    exact hk (hi.passed q hd k hqk)

example : punches [⟨1, .waits 1⟩, ⟨2, .quick⟩, ⟨3, .token 1⟩] = 1 := by decide

/-! ## C242: with time limits no session is stuck for ever -/

theorem C242_drained (limit : Nat) (hl : 0 < limit) (es : List Event) :
    ∃ fs, (∀ e ∈ fs, ∀ p, e ≠ Event.arrive p) ∧
      let s := run (init limit true) (es ++ fs)
      s.wire = [] ∧ s.busy = [] ∧ ∀ p, (arrived es).count p = s.done.count p + s.lapsed.count p := by
  have hf := fixed_run es (init limit true)
  obtain ⟨fs, h1, h2, h3⟩ := drain _ (run (init limit true) es) hf.2
    (by rw [hf.1]; exact hl) (Nat.le_refl _)
  refine ⟨fs, h1, ?_⟩
  have hi := inv_reach limit true (es ++ fs)
  rw [run_append] at hi ⊢
  refine ⟨h2, h3, ?_⟩
  intro p
  have hc := hi.count p
  have ha : arrived fs = [] := by
    clear hi h2 h3 hc
    induction fs with
    | nil => rfl
    | cons e fs ih =>
      have := h1 e (List.mem_cons_self ..)
      have h4 := ih (fun x hx => h1 x (List.mem_cons_of_mem _ hx))
      cases e with
      | arrive p => exact absurd rfl (this p)
      | take => exact h4
      | finish p => exact h4
      | lapse p => exact h4
  rw [arrived_append, ha, List.append_nil, h2, h3] at hc
  simpa using hc

/-! ## C243: a hole punch whose packets have arrived is not given up -/

/-- Refuted: in a jam nothing is done before one of the hole punches in it has been given up,
although the packets that all of them wait for may be there. -/
theorem C243_counterexample (s : State) (h : Jammed s) (fs : List Event)
    (hd : (run s fs).done ≠ s.done) : ∃ p ∈ s.busy, Event.lapse p ∈ fs := by
  apply Classical.byContradiction
  intro hn
  exact hd (jam_run fs s h (.inr fun p hp hm => hn ⟨p, hp, hm⟩)).2.1

/-- Such a jam is reached, for every limit, with all those packets there. -/
theorem C243_counterexample_reached (limit : Nat) : ∃ es : List Event,
    Jammed (run (init limit true) es) ∧
    ∀ p ∈ (run (init limit true) es).busy, ∀ k, p.work = .waits k →
      ∃ q ∈ (run (init limit true) es).wire, q.work = .token k := by
  refine ⟨(starts limit ++ answers limit).map .arrive ++ List.replicate limit .take, ?_⟩
  have h1 : run (init limit true)
      ((starts limit ++ answers limit).map .arrive ++ List.replicate limit .take) =
      ⟨limit, true, answers limit, starts limit, [], [], [], starts limit⟩ := by
    rw [run_append, arrives]
    have := takes (starts limit) (answers limit)
      { init limit true with wire := (init limit true).wire ++ (starts limit ++ answers limit) }
      (by simp [init]) (by simp [init, starts_length])
    rw [starts_length] at this
    rw [this]
    simp [init]
  rw [h1]
  refine ⟨⟨by simp [starts_length], ?_⟩, ?_⟩
  · intro p hp
    obtain ⟨k, hk⟩ := starts_waits limit p hp
    exact ⟨k, hk, by simp⟩
  · intro p hp k hk
    have hlt : k < limit := starts_lt limit p hp k hk
    exact ⟨⟨k, .token k⟩, answers_mem limit k hlt, rfl⟩

/-- Partial: as long as fewer hole punches than the limit have arrived, one whose packet of the
other side has arrived can end without anything being given up.  What is missing: as many as the
limit. -/
theorem C243_partial (limit : Nat) (timers : Bool) (es : List Event) (p q : Pkt) (k : Nat)
    (h : punches (arrived es) < limit) (hp : p ∈ arrived es) (hk : p.work = .waits k)
    (hq : q ∈ arrived es) (hqk : q.work = .token k)
    (hl : (run (init limit timers) es).lapsed = []) :
    ∃ fs, (∀ e ∈ fs, Own e) ∧ p ∈ (run (init limit timers) (es ++ fs)).done ∧
      (run (init limit timers) (es ++ fs)).lapsed = [] := by
  obtain ⟨fs, ho, hw, hb⟩ := C241_partial limit timers es h
  have hi := inv_reach limit timers (es ++ fs)
  have hlap : (run (init limit timers) (es ++ fs)).lapsed = [] := by
    rw [run_append, own_lapsed fs _ ho]; exact hl
  refine ⟨fs, ho, ?_, hlap⟩
  have hc := hi.count p
  rw [arrived_append, arrived_own fs ho, List.append_nil, hw, hlap] at hc
  have hnb : p ∉ (run (init limit timers) (es ++ fs)).busy := by
    intro hm
    obtain ⟨k', hk', hn⟩ := hb p hm
    rw [hk] at hk'
    cases hk'
    exact hn q hq hqk
  rw [List.count_eq_zero_of_not_mem hnb] at hc
  have hpos : 0 < (arrived es).count p := List.count_pos_iff.mpr hp
  simp only [List.count_nil] at hc
  exact List.count_pos_iff.mp (by omega)

example : let es := [Event.arrive ⟨1, .waits 1⟩, .arrive ⟨2, .waits 2⟩, .arrive ⟨3, .token 1⟩]
    punches (arrived es) < 3 ∧ (run (init 3 true) es).lapsed = [] := by decide

end Verif.Inbound

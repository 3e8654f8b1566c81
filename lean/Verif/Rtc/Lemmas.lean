import Verif.Rtc.Spec

namespace Verif.Rtc

theorem run_append : ∀ (es fs : List Event) (s : State), run s (es ++ fs) = run (run s es) fs
  | [], _, _ => rfl
  | e :: es, fs, s => run_append es fs (step s e)

/-- Lifts what all steps of an end keep to runs. -/
theorem run_keeps {P : State → Prop} {Q : Event → Prop}
    (h : ∀ s e, Q e → P s → P (step s e)) :
    ∀ (es : List Event) (s : State), (∀ e ∈ es, Q e) → P s → P (run s es)
  | [], _, _, hs => hs
  | e :: es, s, hq, hs =>
    run_keeps h es (step s e) (fun x hx => hq x (List.mem_cons_of_mem _ hx))
      (h s e (hq e (List.mem_cons_self ..)) hs)

/-! ## One end -/

/-- The kernel has the channel just when the hole punch is over. -/
def EndOk (e : End) : Prop :=
  match e.phase with
  | .direct => e.given = 1
  | .relayed => e.given = 1
  | _ => e.given = 0

theorem ok_begin {e : End} (h : EndOk e) (t : Bool) : EndOk (e.begin t) := by
  cases e with
  | mk i p r q g => cases p <;> cases t <;> cases i <;> simp_all [EndOk, End.begin]

theorem ok_deliver {e : End} (h : EndOk e) (x : Signal) : EndOk (e.deliver x) := by
  unfold End.deliver
  split <;> exact h

theorem ok_make {e : End} (h : EndOk e) (ok : Bool) : EndOk (e.make ok).1 := by
  cases e with
  | mk i p r q g => cases p <;> cases ok <;> simp_all [EndOk, End.make, End.giveUp]

theorem ok_recv {e : End} (h : EndOk e) (ok : Bool) : EndOk (e.recv ok) := by
  cases e with
  | mk i p r q g =>
    cases q with
    | nil => exact h
    | cons x q => cases p <;> cases ok <;> cases x <;> simp_all [EndOk, End.recv, End.giveUp]

theorem ok_opens {e : End} (h : EndOk e) (o : End) : EndOk (e.opens o) := by
  unfold End.opens
  split
  · rename_i hp
    simp only [EndOk, hp.1] at h
    simp [EndOk, End.succeed, h]
  · exact h

theorem ok_error {e : End} (h : EndOk e) : EndOk e.error := by
  unfold End.error
  split
  · rename_i hp
    simp only [EndOk, hp] at h
    simp [EndOk, End.giveUp, h]
  · exact h

theorem ok_step (s : State) (e : Event) (h : EndOk s.a ∧ EndOk s.b) :
    EndOk (step s e).a ∧ EndOk (step s e).b := by
  cases e with
  | begin w t => cases w; exact ⟨h.1, ok_begin h.2 t⟩; exact ⟨ok_begin h.1 t, h.2⟩
  | make w ok => cases w; exact ⟨h.1, ok_make h.2 ok⟩; exact ⟨ok_make h.1 ok, h.2⟩
  | arrive w =>
    cases w <;> simp only [step] <;> split
    · exact h
    · exact ⟨h.1, ok_deliver h.2 _⟩
    · exact h
    · exact ⟨ok_deliver h.1 _, h.2⟩
  | recv w ok => cases w; exact ⟨h.1, ok_recv h.2 ok⟩; exact ⟨ok_recv h.1 ok, h.2⟩
  | opens w => cases w; exact ⟨h.1, ok_opens h.2 _⟩; exact ⟨ok_opens h.1 _, h.2⟩
  | error w => cases w; exact ⟨h.1, ok_error h.2⟩; exact ⟨ok_error h.1, h.2⟩

theorem ok_run (es : List Event) : EndOk (run init es).a ∧ EndOk (run init es).b :=
  run_keeps (P := fun s => EndOk s.a ∧ EndOk s.b) (Q := fun _ => True)
    (fun s e _ h => ok_step s e h) es init (fun _ _ => trivial) ⟨rfl, rfl⟩

/-! ## An end that waits for ever -/

/-- The initiator waits for an answer, and the responder will not give one. -/
def Stuck (s : State) : Prop :=
  s.a.phase = .wantAnswer ∧ s.a.inbox = [] ∧ s.toA = [] ∧
    (s.b.phase = .relayed ∨
      ((s.b.phase = .before ∨ s.b.phase = .wantOffer) ∧ s.b.initiator = false ∧ s.b.inbox = [] ∧
        s.toB = []))

theorem stuck_step {s : State} (h : Stuck s) (e : Event) :
    Stuck (step s e) ∧ (step s e).a = s.a := by
  obtain ⟨⟨ai, ap, ar, aq, ag⟩, ⟨bi, bp, br, bq, bg⟩, tb, ta⟩ := s
  obtain ⟨h1, h2, h3, h4⟩ := h
  simp only at h1 h2 h3 h4
  subst h1 h2 h3
  rcases h4 with h4 | ⟨h4 | h4, h5, h6, h7⟩
  · subst h4
    cases e with
    | begin w t => cases w <;> simp [step, Stuck, End.begin]
    | make w ok => cases w <;> simp [step, Stuck, End.make]
    | arrive w =>
      cases w
      · cases tb <;> cases br <;> simp [step, Stuck, End.deliver]
      · simp [step, Stuck]
    | recv w ok => cases w <;> cases bq <;> simp [step, Stuck, End.recv]
    | opens w => cases w <;> simp [step, Stuck, End.opens]
    | error w => cases w <;> simp [step, Stuck, End.error]
  · subst h4 h5 h6 h7
    cases e with
    | begin w t => cases w <;> cases t <;> simp [step, Stuck, End.begin]
    | make w ok => cases w <;> simp [step, Stuck, End.make]
    | arrive w => cases w <;> simp [step, Stuck]
    | recv w ok => cases w <;> simp [step, Stuck, End.recv]
    | opens w => cases w <;> simp [step, Stuck, End.opens]
    | error w => cases w <;> simp [step, Stuck, End.error]
  · subst h4 h5 h6 h7
    cases e with
    | begin w t => cases w <;> cases t <;> simp [step, Stuck, End.begin]
    | make w ok => cases w <;> simp [step, Stuck, End.make]
    | arrive w => cases w <;> simp [step, Stuck]
    | recv w ok => cases w <;> simp [step, Stuck, End.recv]
    | opens w => cases w <;> simp [step, Stuck, End.opens]
    | error w => cases w <;> simp [step, Stuck, End.error]

theorem stuck_run : ∀ (es : List Event) (s : State), Stuck s → Stuck (run s es) ∧ (run s es).a = s.a
  | [], _, h => ⟨h, rfl⟩
  | e :: es, s, h => by
    have h1 := stuck_step h e
    have h2 := stuck_run es (step s e) h1.1
    exact ⟨h2.1, h2.2.trans h1.2⟩

/-- Two ends that wait for the data channel wait on unless the network does something. -/
theorem waiting_step (s : State) (e : Event) (hq : Quiet e)
    (h : s.a.phase = .opening ∧ s.b.phase = .opening) :
    ((step s e).a.phase = .opening ∧ (step s e).b.phase = .opening) := by
  cases e with
  | begin w t => cases w <;> simp [step, End.begin, h.1, h.2]
  | make w ok => cases w <;> simp [step, End.make, h.1, h.2]
  | arrive w =>
    cases w <;> simp only [step] <;> split
    · exact h
    · refine ⟨h.1, ?_⟩
      unfold End.deliver
      split <;> exact h.2
    · exact h
    · refine ⟨?_, h.2⟩
      unfold End.deliver
      split <;> exact h.1
  | recv w ok =>
    cases w
    · refine ⟨h.1, ?_⟩
      simp only [step, End.recv]
      split
      · exact h.2
      · simp [h.2]
    · refine ⟨?_, h.2⟩
      simp only [step, End.recv]
      split
      · exact h.1
      · simp [h.1]
  | opens w => cases hq
  | error w => cases hq

/-! ## Over is over -/

theorem over_step (s : State) (e : Event) :
    (s.a.over → (step s e).a.phase = s.a.phase) ∧ (s.b.over → (step s e).b.phase = s.b.phase) := by
  have hb : ∀ (x : End) t, x.over → (x.begin t).phase = x.phase := by
    rintro x t (h | h) <;> simp [End.begin, h]
  have hm : ∀ (x : End) ok, x.over → (x.make ok).1.phase = x.phase := by
    rintro x t (h | h) <;> simp [End.make, h]
  have hd : ∀ (x : End) y, (x.deliver y).phase = x.phase := by
    intro x y; unfold End.deliver; split <;> rfl
  have hr : ∀ (x : End) ok, x.over → (x.recv ok).phase = x.phase := by
    rintro x t (h | h) <;> unfold End.recv <;> split <;> simp [h]
  have ho : ∀ (x : End) y, x.over → (x.opens y).phase = x.phase := by
    rintro x t (h | h) <;> simp [End.opens, h]
  have he : ∀ (x : End), x.over → x.error.phase = x.phase := by
    rintro x (h | h) <;> simp [End.error, h]
  cases e with
  | begin w t => cases w; exact ⟨fun _ => rfl, hb _ t⟩; exact ⟨hb _ t, fun _ => rfl⟩
  | make w ok => cases w; exact ⟨fun _ => rfl, hm _ ok⟩; exact ⟨hm _ ok, fun _ => rfl⟩
  | arrive w =>
    cases w <;> simp only [step] <;> split
    · exact ⟨fun _ => rfl, fun _ => rfl⟩
    · exact ⟨fun _ => rfl, fun _ => hd _ _⟩
    · exact ⟨fun _ => rfl, fun _ => rfl⟩
    · exact ⟨fun _ => hd _ _, fun _ => rfl⟩
  | recv w ok => cases w; exact ⟨fun _ => rfl, hr _ ok⟩; exact ⟨hr _ ok, fun _ => rfl⟩
  | opens w => cases w; exact ⟨fun _ => rfl, ho _ _⟩; exact ⟨ho _ _, fun _ => rfl⟩
  | error w => cases w; exact ⟨fun _ => rfl, he _⟩; exact ⟨he _, fun _ => rfl⟩

theorem over_run : ∀ (es : List Event) (s : State),
    (s.a.over → (run s es).a.phase = s.a.phase) ∧ (s.b.over → (run s es).b.phase = s.b.phase)
  | [], _ => ⟨fun _ => rfl, fun _ => rfl⟩
  | e :: es, s => by
    have h1 := over_step s e
    have h2 := over_run es (step s e)
    constructor
    · intro h
      refine (h2.1 ?_).trans (h1.1 h)
      unfold End.over
      rw [h1.1 h]
      exact h
    · intro h
      refine (h2.2 ?_).trans (h1.2 h)
      unfold End.over
      rw [h1.2 h]
      exact h

/-! ## Both ends -/

/-- An end that has opened its data channel did so with the other. -/
def Agree (s : State) : Prop :=
  (s.a.phase = .direct → s.b.set = true) ∧ (s.b.phase = .direct → s.a.set = true)

theorem set_iff (e : End) : e.set = true ↔ e.phase = .opening ∨ e.phase = .direct := by
  simp [End.set]

/-- What a step does to the two phases, when nothing reports an error. -/
theorem set_step (s : State) (e : Event) (he : ∀ w, e ≠ .error w) :
    (s.a.set = true → (step s e).a.set = true) ∧ (s.b.set = true → (step s e).b.set = true) ∧
    ((step s e).a.phase = .direct → s.a.phase = .direct ∨ s.b.set = true) ∧
    ((step s e).b.phase = .direct → s.b.phase = .direct ∨ s.a.set = true) := by
  simp only [set_iff]
  have hb : ∀ (x : End) t, (x.phase = .opening ∨ x.phase = .direct → (x.begin t).phase = x.phase) ∧
      ((x.begin t).phase = .direct → x.phase = .direct) := by
    intro x t
    cases x with
    | mk i p r q g => cases p <;> cases t <;> cases i <;> simp [End.begin]
  have hm : ∀ (x : End) t, (x.phase = .opening ∨ x.phase = .direct → (x.make t).1.phase = x.phase) ∧
      ((x.make t).1.phase = .direct → x.phase = .direct) := by
    intro x t
    cases x with
    | mk i p r q g => cases p <;> cases t <;> simp [End.make, End.giveUp]
  have hd : ∀ (x : End) y, (x.deliver y).phase = x.phase := by
    intro x y; unfold End.deliver; split <;> rfl
  have hr : ∀ (x : End) t, (x.phase = .opening ∨ x.phase = .direct → (x.recv t).phase = x.phase) ∧
      ((x.recv t).phase = .direct → x.phase = .direct) := by
    intro x t
    cases x with
    | mk i p r q g =>
      cases q with
      | nil => simp [End.recv]
      | cons y q => cases p <;> cases t <;> cases y <;> simp [End.recv, End.giveUp]
  have ho : ∀ (x y : End), (x.phase = .opening ∨ x.phase = .direct →
      (x.opens y).phase = .opening ∨ (x.opens y).phase = .direct) ∧
      ((x.opens y).phase = .direct → x.phase = .direct ∨ y.phase = .opening ∨ y.phase = .direct) := by
    intro x y
    unfold End.opens
    split
    · rename_i h
      exact ⟨fun _ => .inr rfl, fun _ => .inr ((set_iff y).mp h.2)⟩
    · exact ⟨id, .inl⟩
  cases e with
  | begin w t =>
    cases w
    · exact ⟨id, fun h => by rw [show (step s (.begin false t)).b.phase = s.b.phase from (hb _ t).1 h]; exact h,
        .inl, fun h => .inl ((hb _ t).2 h)⟩
    · exact ⟨fun h => by rw [show (step s (.begin true t)).a.phase = s.a.phase from (hb _ t).1 h]; exact h,
        id, fun h => .inl ((hb _ t).2 h), .inl⟩
  | make w t =>
    cases w
    · exact ⟨id, fun h => by rw [show (step s (.make false t)).b.phase = s.b.phase from (hm _ t).1 h]; exact h,
        .inl, fun h => .inl ((hm _ t).2 h)⟩
    · exact ⟨fun h => by rw [show (step s (.make true t)).a.phase = s.a.phase from (hm _ t).1 h]; exact h,
        id, fun h => .inl ((hm _ t).2 h), .inl⟩
  | arrive w =>
    have h1 : (step s (.arrive w)).a.phase = s.a.phase ∧ (step s (.arrive w)).b.phase = s.b.phase := by
      cases w <;> simp only [step] <;> split <;> simp [hd]
    rw [h1.1, h1.2]
    exact ⟨id, id, .inl, .inl⟩
  | recv w t =>
    cases w
    · exact ⟨id, fun h => by rw [show (step s (.recv false t)).b.phase = s.b.phase from (hr _ t).1 h]; exact h,
        .inl, fun h => .inl ((hr _ t).2 h)⟩
    · exact ⟨fun h => by rw [show (step s (.recv true t)).a.phase = s.a.phase from (hr _ t).1 h]; exact h,
        id, fun h => .inl ((hr _ t).2 h), .inl⟩
  | opens w =>
    cases w
    · exact ⟨id, (ho s.b s.a).1, .inl, (ho s.b s.a).2⟩
    · exact ⟨(ho s.a s.b).1, id, (ho s.a s.b).2, .inl⟩
  | error w => exact absurd rfl (he w)

theorem agree_step (s : State) (e : Event) (he : ∀ w, e ≠ .error w) (h : Agree s) :
    Agree (step s e) := by
  obtain ⟨h1, h2, h3, h4⟩ := set_step s e he
  constructor
  · intro hd
    exact h2 ((h3 hd).elim h.1 id)
  · intro hd
    exact h1 ((h4 hd).elim h.2 id)

/-- The states of an attempt in which nothing fails and the offer does not come too early. -/
def chain : List State :=
  let st (ap bp : Phase) (ar br : Bool) (ai bi : List Signal) (ag bg : Nat) (tb ta : List Signal) : State :=
    ⟨⟨true, ap, ar, ai, ag⟩, ⟨false, bp, br, bi, bg⟩, tb, ta⟩
  [st .before .before false false [] [] 0 0 [] [],
   st .making .before true false [] [] 0 0 [] [],
   st .wantAnswer .before true false [] [] 0 0 [.offer] [],
   st .before .wantOffer false true [] [] 0 0 [] [],
   st .making .wantOffer true true [] [] 0 0 [] [],
   st .wantAnswer .wantOffer true true [] [] 0 0 [.offer] [],
   st .wantAnswer .wantOffer true true [] [.offer] 0 0 [] [],
   st .wantAnswer .answering true true [] [] 0 0 [] [],
   st .wantAnswer .opening true true [] [] 0 0 [] [.answer],
   st .wantAnswer .opening true true [.answer] [] 0 0 [] [],
   st .opening .opening true true [] [] 0 0 [] [],
   st .direct .opening false true [] [] 1 0 [] [],
   st .opening .direct true false [] [] 0 1 [] [],
   st .direct .direct false false [] [] 1 1 [] []]

/-- All events in which nothing fails. -/
def goods : List Event :=
  [.begin true false, .begin false false, .make true true, .make false true, .arrive true,
    .arrive false, .recv true true, .recv false true, .opens true, .opens false]

theorem good_mem (e : Event) (h : Good e) : e ∈ goods := by
  cases e with
  | begin w t => cases w <;> cases t <;> first | decide | cases h
  | make w t => cases w <;> cases t <;> first | decide | cases h
  | arrive w => cases w <;> decide
  | recv w t => cases w <;> cases t <;> first | decide | cases h
  | opens w => cases w <;> decide
  | error w => cases h

theorem chain_closed : ∀ s ∈ chain, ∀ e ∈ goods, (e ≠ .arrive false ∨ s.b.phase ≠ .before) →
    step s e ∈ chain ∧ (s.b.phase ≠ .before → (step s e).b.phase ≠ .before) := by decide +kernel

theorem chain_begin : ∀ s ∈ chain, (step s (.begin false false)).b.phase ≠ .before := by
  decide +kernel

theorem chain_ends : ∀ s ∈ chain, s.b.phase ≠ .before →
    ∃ n ∈ List.range 11, (run s (smooth.drop n)).a.phase = .direct ∧
      (run s (smooth.drop n)).b.phase = .direct := by decide +kernel

/-! ## What a direct connection took -/

def offered (past : List Event) : Prop := Event.make true true ∈ past
def answered (past : List Event) : Prop := Event.make false true ∈ past

/-- What the phase of the initiator says about the past. -/
def PhaseA (O A : Prop) : Phase → Prop
  | .before => True
  | .making => True
  | .relayed => True
  | .wantAnswer => O
  | .opening => O ∧ A
  | .direct => O ∧ A
  | .wantOffer => False
  | .answering => False

def PhaseB (O A : Prop) : Phase → Prop
  | .before => True
  | .wantOffer => True
  | .relayed => True
  | .answering => O
  | .opening => O ∧ A
  | .direct => O ∧ A
  | .making => False
  | .wantAnswer => False

structure SideA (O A : Prop) (e : End) : Prop where
  role : e.initiator = true
  phase : PhaseA O A e.phase
  inbox : ∀ x ∈ e.inbox, x = .answer ∧ A

structure SideB (O A : Prop) (e : End) : Prop where
  role : e.initiator = false
  phase : PhaseB O A e.phase
  inbox : ∀ x ∈ e.inbox, x = .offer ∧ O

section
variable {O A : Prop} {e : End}

theorem sideA_begin (h : SideA O A e) (t : Bool) : SideA O A (e.begin t) := by
  obtain ⟨i, p, r, q, g⟩ := e
  obtain ⟨h1, h2, h3⟩ := h
  simp only at h1 h2 h3
  subst h1
  cases p <;> cases t <;> exact ⟨rfl, by simp_all [End.begin, PhaseA], h3⟩

theorem sideB_begin (h : SideB O A e) (t : Bool) : SideB O A (e.begin t) := by
  obtain ⟨i, p, r, q, g⟩ := e
  obtain ⟨h1, h2, h3⟩ := h
  simp only at h1 h2 h3
  subst h1
  cases p <;> cases t <;> exact ⟨rfl, by simp_all [End.begin, PhaseB], h3⟩

theorem sideA_giveUp (h : SideA O A e) : SideA O A e.giveUp :=
  ⟨h.role, trivial, by simp [End.giveUp]⟩

theorem sideB_giveUp (h : SideB O A e) : SideB O A e.giveUp :=
  ⟨h.role, trivial, by simp [End.giveUp]⟩

theorem sideA_make (h : SideA O A e) (ok : Bool) (ho : ok = true → O) :
    SideA O A (e.make ok).1 ∧ ∀ x ∈ (e.make ok).2, x = .offer ∧ ok = true := by
  have hp := h.phase
  unfold End.make
  split
  · split
    · rename_i hk
      exact ⟨⟨h.role, ho hk, h.inbox⟩, by simp [hk]⟩
    · exact ⟨sideA_giveUp h, by simp⟩
  · rename_i he
    rw [he] at hp
    exact hp.elim
  · exact ⟨h, by simp⟩

theorem sideB_make (h : SideB O A e) (ok : Bool) (ha : ok = true → A) :
    SideB O A (e.make ok).1 ∧ ∀ x ∈ (e.make ok).2, x = .answer ∧ ok = true := by
  have hp := h.phase
  unfold End.make
  split
  · rename_i he
    rw [he] at hp
    exact hp.elim
  · rename_i he
    rw [he] at hp
    split
    · rename_i hk
      exact ⟨⟨h.role, ⟨hp, ha hk⟩, h.inbox⟩, by simp [hk]⟩
    · exact ⟨sideB_giveUp h, by simp⟩
  · exact ⟨h, by simp⟩

theorem sideA_deliver (h : SideA O A e) (x : Signal) (hx : x = .answer ∧ A) :
    SideA O A (e.deliver x) := by
  unfold End.deliver
  split
  · refine ⟨h.role, h.phase, ?_⟩
    intro y hy
    rcases List.mem_append.mp hy with hy | hy
    · exact h.inbox y hy
    · rw [List.mem_singleton.mp hy]; exact hx
  · exact h

theorem sideB_deliver (h : SideB O A e) (x : Signal) (hx : x = .offer ∧ O) :
    SideB O A (e.deliver x) := by
  unfold End.deliver
  split
  · refine ⟨h.role, h.phase, ?_⟩
    intro y hy
    rcases List.mem_append.mp hy with hy | hy
    · exact h.inbox y hy
    · rw [List.mem_singleton.mp hy]; exact hx
  · exact h

theorem sideA_recv (h : SideA O A e) (ok : Bool) : SideA O A (e.recv ok) := by
  have hp := h.phase
  unfold End.recv
  split
  · exact h
  · rename_i x q hq
    have hx := h.inbox x (by rw [hq]; exact List.mem_cons_self ..)
    split
    · rename_i he
      rw [he] at hp
      exact hp.elim
    · rename_i he
      rw [he] at hp
      split
      · exact ⟨h.role, ⟨hp, hx.2⟩,
          fun y hy => h.inbox y (by rw [hq]; exact List.mem_cons_of_mem _ hy)⟩
      · exact sideA_giveUp h
    · exact h

theorem sideB_recv (h : SideB O A e) (ok : Bool) : SideB O A (e.recv ok) := by
  have hp := h.phase
  unfold End.recv
  split
  · exact h
  · rename_i x q hq
    have hx := h.inbox x (by rw [hq]; exact List.mem_cons_self ..)
    split
    · split
      · exact ⟨h.role, hx.2,
          fun y hy => h.inbox y (by rw [hq]; exact List.mem_cons_of_mem _ hy)⟩
      · exact sideB_giveUp h
    · rename_i he
      rw [he] at hp
      exact hp.elim
    · exact h

theorem sideA_opens (h : SideA O A e) (o : End) : SideA O A (e.opens o) := by
  have hp := h.phase
  unfold End.opens
  split
  · rename_i he
    rw [he.1] at hp
    exact ⟨h.role, hp, by simp [End.succeed]⟩
  · exact h

theorem sideB_opens (h : SideB O A e) (o : End) : SideB O A (e.opens o) := by
  have hp := h.phase
  unfold End.opens
  split
  · rename_i he
    rw [he.1] at hp
    exact ⟨h.role, hp, by simp [End.succeed]⟩
  · exact h

theorem sideA_error (h : SideA O A e) : SideA O A e.error := by
  unfold End.error
  split
  · exact sideA_giveUp h
  · exact h

theorem sideB_error (h : SideB O A e) : SideB O A e.error := by
  unfold End.error
  split
  · exact sideB_giveUp h
  · exact h

theorem sideA_mono {O' A' : Prop} (h : SideA O A e) (ho : O → O') (ha : A → A') : SideA O' A' e := by
  refine ⟨h.role, ?_, fun x hx => ⟨(h.inbox x hx).1, ha (h.inbox x hx).2⟩⟩
  have hp := h.phase
  generalize e.phase = p at hp ⊢
  cases p <;> simp only [PhaseA] at hp ⊢
  · exact ho hp
  · exact ⟨ho hp.1, ha hp.2⟩
  · exact ⟨ho hp.1, ha hp.2⟩

theorem sideB_mono {O' A' : Prop} (h : SideB O A e) (ho : O → O') (ha : A → A') : SideB O' A' e := by
  refine ⟨h.role, ?_, fun x hx => ⟨(h.inbox x hx).1, ho (h.inbox x hx).2⟩⟩
  have hp := h.phase
  generalize e.phase = p at hp ⊢
  cases p <;> simp only [PhaseB] at hp ⊢
  · exact ho hp
  · exact ⟨ho hp.1, ha hp.2⟩
  · exact ⟨ho hp.1, ha hp.2⟩

end

structure Cause (s : State) (past : List Event) : Prop where
  a : SideA (offered past) (answered past) s.a
  b : SideB (offered past) (answered past) s.b
  toA : ∀ x ∈ s.toA, x = .answer ∧ answered past
  toB : ∀ x ∈ s.toB, x = .offer ∧ offered past

theorem cause_init : Cause init [] :=
  ⟨⟨rfl, trivial, by simp [init, newEnd]⟩, ⟨rfl, trivial, by simp [init, newEnd]⟩,
    by simp [init], by simp [init]⟩

theorem cause_step {s : State} {past : List Event} (h : Cause s past) (e : Event) :
    Cause (step s e) (past ++ [e]) := by
  have ho : offered past → offered (past ++ [e]) := fun h => List.mem_append_left _ h
  have ha : answered past → answered (past ++ [e]) := fun h => List.mem_append_left _ h
  have hm : Cause s (past ++ [e]) := ⟨sideA_mono h.a ho ha, sideB_mono h.b ho ha,
    fun x hx => ⟨(h.toA x hx).1, ha (h.toA x hx).2⟩, fun x hx => ⟨(h.toB x hx).1, ho (h.toB x hx).2⟩⟩
  clear ho ha
  cases e with
  | begin w t =>
    cases w
    · exact ⟨hm.a, sideB_begin hm.b t, hm.toA, hm.toB⟩
    · exact ⟨sideA_begin hm.a t, hm.b, hm.toA, hm.toB⟩
  | make w ok =>
    cases w
    · have hk : ok = true → answered (past ++ [.make false ok]) := by
        rintro rfl; exact List.mem_append_right _ (List.mem_singleton.mpr rfl)
      have h1 := sideB_make hm.b ok hk
      refine ⟨hm.a, h1.1, ?_, hm.toB⟩
      intro x hx
      rcases List.mem_append.mp hx with hx | hx
      · exact hm.toA x hx
      · exact ⟨(h1.2 x hx).1, hk (h1.2 x hx).2⟩
    · have hk : ok = true → offered (past ++ [.make true ok]) := by
        rintro rfl; exact List.mem_append_right _ (List.mem_singleton.mpr rfl)
      have h1 := sideA_make hm.a ok hk
      refine ⟨h1.1, hm.b, hm.toA, ?_⟩
      intro x hx
      rcases List.mem_append.mp hx with hx | hx
      · exact hm.toB x hx
      · exact ⟨(h1.2 x hx).1, hk (h1.2 x hx).2⟩
  | arrive w =>
    cases w <;> simp only [step] <;> split
    · exact hm
    · rename_i x q hq
      exact ⟨hm.a, sideB_deliver hm.b x (hm.toB x (by rw [hq]; exact List.mem_cons_self ..)),
        hm.toA, fun y hy => hm.toB y (by rw [hq]; exact List.mem_cons_of_mem _ hy)⟩
    · exact hm
    · rename_i x q hq
      exact ⟨sideA_deliver hm.a x (hm.toA x (by rw [hq]; exact List.mem_cons_self ..)), hm.b,
        fun y hy => hm.toA y (by rw [hq]; exact List.mem_cons_of_mem _ hy), hm.toB⟩
  | recv w ok =>
    cases w
    · exact ⟨hm.a, sideB_recv hm.b ok, hm.toA, hm.toB⟩
    · exact ⟨sideA_recv hm.a ok, hm.b, hm.toA, hm.toB⟩
  | opens w =>
    cases w
    · exact ⟨hm.a, sideB_opens hm.b _, hm.toA, hm.toB⟩
    · exact ⟨sideA_opens hm.a _, hm.b, hm.toA, hm.toB⟩
  | error w =>
    cases w
    · exact ⟨hm.a, sideB_error hm.b, hm.toA, hm.toB⟩
    · exact ⟨sideA_error hm.a, hm.b, hm.toA, hm.toB⟩

theorem cause_run : ∀ (es : List Event) (s : State) (past : List Event), Cause s past →
    Cause (run s es) (past ++ es)
  | [], s, past, h => by rw [List.append_nil]; exact h
  | e :: es, s, past, h => by
    have := cause_run es (step s e) (past ++ [e]) (cause_step h e)
    rw [List.append_assoc] at this
    exact this

theorem cause_reach (es : List Event) : Cause (run init es) es := by
  have := cause_run es init [] cause_init
  rwa [List.nil_append] at this

/-! ## What is left behind -/

/-- A channel for signals is registered only while the hole punch goes on. -/
def Clean (e : End) : Prop :=
  (e.phase = .before ∨ e.phase = .direct ∨ e.phase = .relayed) → e.registered = false ∧ e.inbox = []

theorem clean_begin {e : End} (h : Clean e) (t : Bool) : Clean (e.begin t) := by
  cases e with
  | mk i p r q g => cases p <;> cases t <;> cases i <;> simp_all [Clean, End.begin]

theorem clean_giveUp (e : End) : Clean e.giveUp := fun _ => ⟨rfl, rfl⟩

theorem clean_make {e : End} (h : Clean e) (ok : Bool) : Clean (e.make ok).1 := by
  cases e with
  | mk i p r q g => cases p <;> cases ok <;> simp_all [Clean, End.make, End.giveUp]

theorem clean_deliver {e : End} (h : Clean e) (x : Signal) : Clean (e.deliver x) := by
  unfold End.deliver
  split
  · rename_i hr
    intro hp
    have := (h hp).1
    rw [hr] at this
    cases this
  · exact h

theorem clean_recv {e : End} (h : Clean e) (ok : Bool) : Clean (e.recv ok) := by
  cases e with
  | mk i p r q g =>
    cases q with
    | nil => exact h
    | cons x q => cases p <;> cases ok <;> cases x <;> simp_all [Clean, End.recv, End.giveUp]

theorem clean_opens {e : End} (h : Clean e) (o : End) : Clean (e.opens o) := by
  unfold End.opens
  split
  · exact fun _ => ⟨rfl, rfl⟩
  · exact h

theorem clean_error {e : End} (h : Clean e) : Clean e.error := by
  unfold End.error
  split
  · exact clean_giveUp e
  · exact h

theorem clean_step (s : State) (e : Event) (h : Clean s.a ∧ Clean s.b) :
    Clean (step s e).a ∧ Clean (step s e).b := by
  cases e with
  | begin w t => cases w; exact ⟨h.1, clean_begin h.2 t⟩; exact ⟨clean_begin h.1 t, h.2⟩
  | make w ok => cases w; exact ⟨h.1, clean_make h.2 ok⟩; exact ⟨clean_make h.1 ok, h.2⟩
  | arrive w =>
    cases w <;> simp only [step] <;> split
    · exact h
    · exact ⟨h.1, clean_deliver h.2 _⟩
    · exact h
    · exact ⟨clean_deliver h.1 _, h.2⟩
  | recv w ok => cases w; exact ⟨h.1, clean_recv h.2 ok⟩; exact ⟨clean_recv h.1 ok, h.2⟩
  | opens w => cases w; exact ⟨h.1, clean_opens h.2 _⟩; exact ⟨clean_opens h.1 _, h.2⟩
  | error w => cases w; exact ⟨h.1, clean_error h.2⟩; exact ⟨clean_error h.1, h.2⟩

theorem clean_run (es : List Event) : Clean (run init es).a ∧ Clean (run init es).b :=
  run_keeps (P := fun s => Clean s.a ∧ Clean s.b) (Q := fun _ => True)
    (fun s e _ h => clean_step s e h) es init (fun _ _ => trivial)
    ⟨fun _ => ⟨rfl, rfl⟩, fun _ => ⟨rfl, rfl⟩⟩

/-! ## One signal each way -/

/-- The end has not sent its signal. -/
def Early (p : Phase) : Prop := p = .before ∨ p = .making ∨ p = .wantOffer ∨ p = .answering

/-- What has been sent to an end by another one and is not taken. -/
def Few (sender : Phase) (n : Nat) : Prop := (Early sender → n = 0) ∧ n ≤ 1

theorem few_le {p : Phase} {n m : Nat} (h : Few p n) (hm : m ≤ n) : Few p m :=
  ⟨fun he => by have := h.1 he; omega, by have := h.2; omega⟩

theorem few_sender {p q : Phase} {n : Nat} (h : Few p n) (hq : Early q → Early p) : Few q n :=
  ⟨fun he => h.1 (hq he), h.2⟩

section
variable (e : End)

theorem begin_inbox (t : Bool) : (e.begin t).inbox.length ≤ e.inbox.length := by
  unfold End.begin
  split
  · split <;> exact Nat.le_refl _
  · exact Nat.le_refl _

theorem begin_early (t : Bool) : Early (e.begin t).phase → Early e.phase := by
  intro h
  unfold End.begin at h
  split at h
  · rename_i hp; exact .inl hp
  · exact h

theorem make_inbox (ok : Bool) : (e.make ok).1.inbox.length ≤ e.inbox.length := by
  unfold End.make
  split
  · split
    · exact Nat.le_refl _
    · exact Nat.zero_le _
  · split
    · exact Nat.le_refl _
    · exact Nat.zero_le _
  · exact Nat.le_refl _

theorem make_few (ok : Bool) {n : Nat} (h : Few e.phase n) :
    Few (e.make ok).1.phase (n + (e.make ok).2.length) := by
  unfold End.make
  split
  · rename_i hp
    have h0 : n = 0 := h.1 (by rw [hp]; exact .inr (.inl rfl))
    subst h0
    split <;> exact ⟨by simp [Early, End.giveUp], by simp⟩
  · rename_i hp
    have h0 : n = 0 := h.1 (by rw [hp]; exact .inr (.inr (.inr rfl)))
    subst h0
    split <;> exact ⟨by simp [Early, End.giveUp], by simp⟩
  · exact h

theorem recv_inbox (ok : Bool) : (e.recv ok).inbox.length ≤ e.inbox.length := by
  unfold End.recv
  split
  · exact Nat.le_refl _
  · rename_i x q hq
    split
    · split
      · rw [hq]; exact Nat.le_succ _
      · exact Nat.zero_le _
    · split
      · rw [hq]; exact Nat.le_succ _
      · exact Nat.zero_le _
    · exact Nat.le_refl _

theorem recv_early (ok : Bool) : Early (e.recv ok).phase → Early e.phase := by
  unfold End.recv
  split
  · exact id
  · split
    · rename_i hp
      intro _
      rw [hp]
      exact .inr (.inr (.inl rfl))
    · split
      · intro h; simp [Early] at h
      · intro h; simp [Early, End.giveUp] at h
    · exact id

theorem opens_inbox (o : End) : (e.opens o).inbox.length ≤ e.inbox.length := by
  unfold End.opens
  split
  · exact Nat.zero_le _
  · exact Nat.le_refl _

theorem opens_early (o : End) : Early (e.opens o).phase → Early e.phase := by
  unfold End.opens
  split
  · intro h; simp [Early, End.succeed] at h
  · exact id

theorem error_inbox : e.error.inbox.length ≤ e.inbox.length := by
  unfold End.error
  split
  · exact Nat.zero_le _
  · exact Nat.le_refl _

theorem error_early : Early e.error.phase → Early e.phase := by
  unfold End.error
  split
  · intro h; simp [Early, End.giveUp] at h
  · exact id

theorem deliver_inbox (x : Signal) : (e.deliver x).inbox.length ≤ e.inbox.length + 1 := by
  unfold End.deliver
  split
  · simp
  · exact Nat.le_succ _

theorem deliver_phase (x : Signal) : (e.deliver x).phase = e.phase := by
  unfold End.deliver
  split <;> rfl

end

structure Once (s : State) : Prop where
  toA : Few s.b.phase (s.a.inbox.length + s.toA.length)
  toB : Few s.a.phase (s.b.inbox.length + s.toB.length)

theorem once_step (s : State) (e : Event) (h : Once s) : Once (step s e) := by
  obtain ⟨h1, h2⟩ := h
  cases e with
  | begin w t =>
    cases w
    · exact ⟨few_sender h1 (begin_early s.b t),
        few_le h2 (Nat.add_le_add_right (begin_inbox s.b t) _)⟩
    · exact ⟨few_le h1 (Nat.add_le_add_right (begin_inbox s.a t) _),
        few_sender h2 (begin_early s.a t)⟩
  | make w ok =>
    cases w
    · refine ⟨?_, few_le h2 (Nat.add_le_add_right (make_inbox s.b ok) _)⟩
      have := make_few s.b ok h1
      simpa [step, Nat.add_assoc] using this
    · refine ⟨few_le h1 (Nat.add_le_add_right (make_inbox s.a ok) _), ?_⟩
      have := make_few s.a ok h2
      simpa [step, Nat.add_assoc] using this
  | arrive w =>
    cases w <;> simp only [step] <;> split
    · exact ⟨h1, h2⟩
    · rename_i x q hq
      refine ⟨by simpa [deliver_phase] using h1, few_le h2 ?_⟩
      have := deliver_inbox s.b x
      simp only [hq, List.length_cons]
      omega
    · exact ⟨h1, h2⟩
    · rename_i x q hq
      refine ⟨few_le h1 ?_, by simpa [deliver_phase] using h2⟩
      have := deliver_inbox s.a x
      simp only [hq, List.length_cons]
      omega
  | recv w ok =>
    cases w
    · exact ⟨few_sender h1 (recv_early s.b ok),
        few_le h2 (Nat.add_le_add_right (recv_inbox s.b ok) _)⟩
    · exact ⟨few_le h1 (Nat.add_le_add_right (recv_inbox s.a ok) _),
        few_sender h2 (recv_early s.a ok)⟩
  | opens w =>
    cases w
    · exact ⟨few_sender h1 (opens_early s.b _),
        few_le h2 (Nat.add_le_add_right (opens_inbox s.b _) _)⟩
    · exact ⟨few_le h1 (Nat.add_le_add_right (opens_inbox s.a _) _),
        few_sender h2 (opens_early s.a _)⟩
  | error w =>
    cases w
    · exact ⟨few_sender h1 (error_early s.b),
        few_le h2 (Nat.add_le_add_right (error_inbox s.b) _)⟩
    · exact ⟨few_le h1 (Nat.add_le_add_right (error_inbox s.a) _),
        few_sender h2 (error_early s.a)⟩

theorem once_run (es : List Event) : Once (run init es) :=
  run_keeps (P := Once) (Q := fun _ => True) (fun s e _ h => once_step s e h) es init
    (fun _ _ => trivial) ⟨⟨fun _ => rfl, Nat.zero_le _⟩, ⟨fun _ => rfl, Nat.zero_le _⟩⟩

end Verif.Rtc

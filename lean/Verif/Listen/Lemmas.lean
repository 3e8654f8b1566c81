import Verif.Listen.Spec

/-! Invariants of listeners. -/

namespace Verif.Listen

theorem step_dead {s : State} (h : s.dead = true) (e : Event) : step s e = s := by
  simp [step, h]

theorem run_dead : ∀ (es : List Event) (s : State), s.dead = true → run s es = s
  | [], _, _ => rfl
  | e :: es, s, h => by
    show run (step s e) es = s
    rw [step_dead h]; exact run_dead es s h

theorem run_append (s : State) : ∀ (as bs : List Event), run s (as ++ bs) = run (run s as) bs := by
  intro as
  induction as generalizing s with
  | nil => intro bs; rfl
  | cons a as ih => intro bs; exact ih (step s a) bs

theorem nstep_dead {n : Node} (h : (n.main.dead || n.extra.dead) = true) (e : Bool × Event) :
    nstep n e = n := by
  simp only [nstep, h, if_true]

theorem nrun_dead : ∀ (es : List (Bool × Event)) (n : Node),
    (n.main.dead || n.extra.dead) = true → nrun n es = n
  | [], _, _ => rfl
  | e :: es, n, h => by
    show nrun (nstep n e) es = n
    rw [nstep_dead h]; exact nrun_dead es n h

theorem kind_step (s : State) (e : Event) : (step s e).kind = s.kind := by
  unfold step
  split
  · rfl
  · cases e with
    | arrive i => rfl
    | accept o =>
      simp only [accept]
      split
      · rfl
      · split
        · split <;> rfl
        · split <;> rfl
        · split
          · rfl
          · unfold bad; split <;> rfl
    | acceptFails => rfl
    | hand i ok =>
      simp only [hand]
      split
      · split
        · unfold good; split <;> rfl
        · unfold bad; split <;> rfl
      · rfl
    | poll => simp only [poll]; split <;> rfl

theorem kind_run : ∀ (es : List Event) (s : State), (run s es).kind = s.kind
  | [], _ => rfl
  | e :: es, s => by
    show (run (step s e) es).kind = s.kind
    rw [kind_run es, kind_step]

theorem bad_alive {s : State} (h : Independent s.kind) : (bad s).dead = s.dead := by
  unfold bad
  rcases h with h | h | h <;> simp [h]

theorem good_alive (s : State) (i : Nat) : (good s i).dead = s.dead := by
  unfold good; split <;> rfl

/-- TCP and TLS listeners die only of `accept`. -/
theorem alive_step {s : State} (hk : Independent s.kind) (h : s.dead = false) (e : Event)
    (ha : e ≠ .acceptFails) (hw : s.kind = .ws → e ≠ .accept false) : (step s e).dead = false := by
  unfold step
  rw [if_neg (by simp [h])]
  cases e with
  | arrive i => exact h
  | accept o =>
    simp only [accept]
    split
    · exact h
    · split
      · rename_i hq; rcases hk with hk | hk | hk <;> (rw [hq] at hk; cases hk)
      · rename_i hq
        cases o with
        | true => exact h
        | false => exact absurd rfl (hw hq)
      · split
        · exact h
        · rename_i b _ _ _ _ _; exact (bad_alive (s := { s with backlog := b }) hk).trans h
  | acceptFails => exact absurd rfl ha
  | hand i ok =>
    simp only [hand]
    split
    · split
      · rw [good_alive]; exact h
      · exact (bad_alive (s := { s with waiting := s.waiting.erase i }) hk).trans h
    · exact h
  | poll => simp only [poll]; split <;> exact h

theorem alive_run : ∀ (es : List Event) (s : State), Independent s.kind → s.dead = false →
    Event.acceptFails ∉ es → (s.kind = .ws → Event.accept false ∉ es) → (run s es).dead = false
  | [], _, _, h, _, _ => h
  | e :: es, s, hk, h, ha, hw => by
    refine alive_run es (step s e) (by rw [kind_step]; exact hk)
      (alive_step hk h e (fun he => ha (by rw [he]; exact List.mem_cons_self))
        (fun hx he => hw hx (by rw [he]; exact List.mem_cons_self)))
      (fun he => ha (List.mem_cons_of_mem _ he)) ?_
    rw [kind_step]
    exact fun hx he => hw hx (List.mem_cons_of_mem _ he)

/-- An attempt is still there. -/
def Has (s : State) (i : Nat) : Prop :=
  i ∈ s.backlog ∨ i ∈ s.waiting ∨ some i ∈ s.queue ∨ some i ∈ s.out

theorem has_step {s : State} (hk : Independent s.kind) {i : Nat} (h : Has s i) (e : Event)
    (hc : Calm e) (hi : e ≠ .hand i false) : Has (step s e) i := by
  unfold step
  split
  · exact h
  · cases e with
    | arrive j =>
      rcases h with h | h
      · exact .inl (List.mem_append_left _ h)
      · exact .inr h
    | accept o =>
      have ho : o = true := hc
      subst ho
      simp only [accept]
      split
      · exact h
      · rename_i j b hb
        have main : Has { s with backlog := b, waiting := s.waiting ++ [j] } i := by
          rcases h with h | h | h
          · rw [hb] at h
            rcases List.mem_cons.mp h with h | h
            · subst h; exact .inr (.inl (by simp))
            · exact .inl h
          · exact .inr (.inl (List.mem_append_left _ h))
          · exact .inr (.inr h)
        split
        · rename_i hq; rcases hk with hk | hk | hk <;> (rw [hq] at hk; cases hk)
        · exact main
        · exact main
    | acceptFails => exact absurd hc (by simp [Calm])
    | hand j ok =>
      simp only [hand]
      split
      · split
        · have hg : good { s with waiting := s.waiting.erase j } j =
              { s with waiting := s.waiting.erase j, queue := s.queue ++ [some j] } := by
            unfold good
            rcases hk with hk | hk | hk <;> simp [hk]
          rw [hg]
          rcases h with h | h | h | h
          · exact .inl h
          · by_cases hj : i = j
            · subst hj; exact .inr (.inr (.inl (by simp)))
            · exact .inr (.inl ((List.mem_erase_of_ne hj).mpr h))
          · exact .inr (.inr (.inl (List.mem_append_left _ h)))
          · exact .inr (.inr (.inr h))
        · rename_i ho
          have hj : i ≠ j := by
            intro hj; subst hj
            cases ok with
            | true => exact ho rfl
            | false => exact hi rfl
          have hh : Has { s with waiting := s.waiting.erase j } i := by
            rcases h with h | h | h
            · exact .inl h
            · exact .inr (.inl ((List.mem_erase_of_ne hj).mpr h))
            · exact .inr (.inr h)
          unfold bad
          split
          · rcases hh with h | h | h | h
            · exact .inl h
            · exact .inr (.inl h)
            · exact .inr (.inr (.inl (List.mem_append_left _ h)))
            · exact .inr (.inr (.inr h))
          · exact hh
          · exact hh
          · exact hh
          · exact hh
      · exact h
    | poll =>
      simp only [poll]
      split
      · exact h
      · rename_i x q hq
        rcases h with h | h | h | h
        · exact .inl h
        · exact .inr (.inl h)
        · rw [hq] at h
          rcases List.mem_cons.mp h with h | h
          · exact .inr (.inr (.inr (by simp [h])))
          · exact .inr (.inr (.inl h))
        · exact .inr (.inr (.inr (List.mem_append_left _ h)))

theorem has_run : ∀ (es : List Event) (s : State) (i : Nat), Independent s.kind → Has s i →
    (∀ e, e ∈ es → Calm e) → Event.hand i false ∉ es → Has (run s es) i
  | [], _, _, _, h, _, _ => h
  | e :: es, s, i, hk, h, hc, hi =>
    has_run es (step s e) i (by rw [kind_step]; exact hk)
      (has_step hk h e (hc e List.mem_cons_self) (fun he => hi (by rw [he]; exact List.mem_cons_self)))
      (fun e' he => hc e' (List.mem_cons_of_mem _ he)) (fun he => hi (List.mem_cons_of_mem _ he))

theorem arrive_has {i : Nat} : ∀ (es : List Event) (s : State), Independent s.kind →
    s.dead = false → Event.arrive i ∈ es → (∀ e, e ∈ es → Calm e) → Event.hand i false ∉ es →
    Has (run s es) i
  | [], _, _, _, hm, _, _ => by cases hm
  | e :: es, s, hk, hd, hm, hc, hi => by
    have hk' : Independent (step s e).kind := by rw [kind_step]; exact hk
    have hc' : ∀ e', e' ∈ es → Calm e' := fun e' he => hc e' (List.mem_cons_of_mem _ he)
    have hi' : Event.hand i false ∉ es := fun he => hi (List.mem_cons_of_mem _ he)
    rcases List.mem_cons.mp hm with hm | hm
    · subst hm
      refine has_run es _ i hk' ?_ hc' hi'
      exact .inl (by simp [step, hd, arrive])
    · have hce := hc e List.mem_cons_self
      refine arrive_has es (step s e) hk' ?_ hm hc' hi'
      refine alive_step hk hd e ?_ ?_
      · intro he; subst he; exact hce
      · intro _ he; subst he; cases hce

theorem accepts : ∀ (n : Nat) (s : State), Independent s.kind → s.dead = false →
    n = s.backlog.length →
    run s (List.replicate n (.accept true)) =
      { s with backlog := [], waiting := s.waiting ++ s.backlog }
  | 0, s, _, _, hn => by
    have : s.backlog = [] := List.length_eq_zero_iff.mp hn.symm
    cases s
    simp only at this
    simp [run, this]
  | n + 1, s, hk, hd, hn => by
    cases hb : s.backlog with
    | nil => rw [hb] at hn; simp at hn
    | cons i b =>
      have h1 : step s (.accept true) = { s with backlog := b, waiting := s.waiting ++ [i] } := by
        rcases hk with hk | hk | hk <;> simp [step, hd, accept, hb, hk]
      show run (step s (.accept true)) (List.replicate n (.accept true)) = _
      rw [h1, accepts n { s with backlog := b, waiting := s.waiting ++ [i] } hk hd
        (by rw [hb] at hn; simpa using hn)]
      simp

theorem polls : ∀ (n : Nat) (s : State), s.dead = false → n = s.queue.length →
    run s (List.replicate n .poll) = { s with queue := [], out := s.out ++ s.queue }
  | 0, s, _, hn => by
    have : s.queue = [] := List.length_eq_zero_iff.mp hn.symm
    cases s
    simp only at this
    simp [run, this]
  | n + 1, s, hd, hn => by
    cases hb : s.queue with
    | nil => rw [hb] at hn; simp at hn
    | cons x q =>
      have h1 : step s .poll = { s with queue := q, out := s.out ++ [x] } := by
        simp [step, hd, poll, hb]
      show run (step s .poll) (List.replicate n .poll) = _
      rw [h1, polls n { s with queue := q, out := s.out ++ [x] } hd (by rw [hb] at hn; simpa using hn)]
      simp

/-- Whoever waits and whoever was let in, in a run. -/
structure Inv (s : State) (past : List Event) : Prop where
  seen : ∀ i, i ∈ s.backlog ++ s.waiting → Event.arrive i ∈ past
  won : ∀ i, some i ∈ s.queue ++ s.out → Event.arrive i ∈ past ∧ Event.hand i true ∈ past
  count : ∀ i, (s.backlog ++ s.waiting).count i + (s.out ++ s.queue).count (some i) ≤
    (arrived past).count i

theorem arrived_append (as bs : List Event) : arrived (as ++ bs) = arrived as ++ arrived bs := by
  induction as with
  | nil => rfl
  | cons a as ih => cases a <;> simp [arrived, ih]

theorem inv_mono {s t : State} {past : List Event} {e : Event} (h : Inv s past)
    (h1 : ∀ i, i ∈ t.backlog ++ t.waiting → i ∈ s.backlog ++ s.waiting)
    (h2 : ∀ i, some i ∈ t.queue ++ t.out → some i ∈ s.queue ++ s.out)
    (h3 : ∀ i, (t.backlog ++ t.waiting).count i + (t.out ++ t.queue).count (some i) ≤
      (s.backlog ++ s.waiting).count i + (s.out ++ s.queue).count (some i)) : Inv t (past ++ [e]) := by
  refine ⟨fun i hi => List.mem_append_left _ (h.seen i (h1 i hi)), fun i hi => ?_, fun i => ?_⟩
  · obtain ⟨a, b⟩ := h.won i (h2 i hi)
    exact ⟨List.mem_append_left _ a, List.mem_append_left _ b⟩
  · rw [arrived_append, List.count_append (l₁ := arrived past)]
    have := h3 i
    have := h.count i
    omega

theorem inv_bad {s : State} {past : List Event} {e : Event} (h : Inv s (past ++ [e])) :
    Inv (bad s) (past ++ [e]) := by
  unfold bad
  split
  · refine ⟨h.seen, ?_, ?_⟩
    · intro i hi
      apply h.won i
      simp only [List.mem_append, List.mem_singleton] at hi ⊢
      rcases hi with (hi | hi) | hi
      · exact .inl hi
      · cases hi
      · exact .inr hi
    · intro i
      have := h.count i
      simp only [List.count_append] at this ⊢
      have h0 : List.count (some i) [none] = 0 := by simp
      omega
  · exact h
  · exact h
  · exact ⟨h.seen, h.won, h.count⟩
  · exact ⟨h.seen, h.won, h.count⟩

theorem inv_step {s : State} {past : List Event} (h : Inv s past) (e : Event) :
    Inv (step s e) (past ++ [e]) := by
  have h0 : Inv s (past ++ [e]) := inv_mono h (fun _ h => h) (fun _ h => h) (fun _ => Nat.le_refl _)
  unfold step
  split
  · exact h0
  · cases e with
    | arrive i =>
      refine ⟨?_, h0.won, ?_⟩
      · intro j hj
        simp only [arrive, List.mem_append, List.mem_singleton] at hj
        rcases hj with (hj | hj) | hj
        · exact h0.seen j (by simp [hj])
        · subst hj; simp
        · exact h0.seen j (by simp [hj])
      · intro j
        have := h.count j
        rw [arrived_append]
        simp only [arrive, List.count_append, arrived] at this ⊢
        omega
    | accept o =>
      simp only [accept]
      split
      · exact h0
      · rename_i i b hb
        have key : ∀ w : List Nat, w = s.waiting ++ [i] →
            Inv { s with backlog := b, waiting := w } (past ++ [.accept o]) := by
          intro w hw
          subst hw
          refine inv_mono h ?_ (fun _ h => h) ?_
          · intro j hj
            rw [hb]
            simp only [List.mem_append, List.mem_cons, List.not_mem_nil, or_false] at hj ⊢
            rcases hj with hj | hj | hj
            · exact .inl (.inr hj)
            · exact .inr hj
            · exact .inl (.inl hj)
          · intro j
            rw [hb]
            simp only [List.count_append, List.count_cons, List.count_nil]
            omega
        have drop : Inv { s with backlog := b } (past ++ [.accept o]) := by
          refine inv_mono h ?_ (fun _ h => h) ?_
          · intro j hj
            rw [hb]
            simp only [List.mem_append, List.mem_cons] at hj ⊢
            rcases hj with hj | hj
            · exact .inl (.inr hj)
            · exact .inr hj
          · intro j
            rw [hb]
            simp only [List.count_append, List.count_cons]
            omega
        split
        · split
          · rename_i hw
            exact key [i] (by rw [hw]; rfl)
          · exact h0
        · split
          · exact key _ rfl
          · exact ⟨drop.seen, drop.won, drop.count⟩
        · split
          · exact key _ rfl
          · exact inv_bad drop
    | acceptFails => exact ⟨h0.seen, h0.won, h0.count⟩
    | hand i ok =>
      simp only [hand]
      split
      · rename_i hm
        have hc : ∀ j, (s.waiting.erase i).count j + (if j = i then 1 else 0) = s.waiting.count j := by
          intro j
          have hp := List.count_pos_iff.mpr hm
          rw [List.count_erase]
          by_cases hj : j = i
          · subst hj; simp; omega
          · have : (i == j) = false := by simp; exact fun h => hj h.symm
            simp [hj, this]
        have drop : Inv { s with waiting := s.waiting.erase i } (past ++ [.hand i ok]) := by
          refine inv_mono h ?_ (fun _ h => h) ?_
          · intro j hj
            simp only [List.mem_append] at hj ⊢
            exact hj.imp id List.mem_of_mem_erase
          · intro j
            have := hc j
            simp only [List.count_append]
            omega
        split
        · rename_i hok
          have hok' : ok = true := hok
          subst hok'
          unfold good
          split
          · exact drop
          · refine ⟨drop.seen, ?_, ?_⟩
            · intro j hj
              simp only [List.mem_append, List.mem_singleton] at hj
              rcases hj with (hj | hj) | hj
              · exact h0.won j (by simp [hj])
              · cases hj
                refine ⟨h0.seen i (by simp [hm]), by simp⟩
              · exact h0.won j (by simp [hj])
            · intro j
              have h1 := h0.count j
              have h2 := hc j
              simp only [List.count_append] at h1 ⊢
              have h3 : List.count (some j) [some i] = if j = i then 1 else 0 := by
                by_cases hj : j = i
                · subst hj; simp
                · have : ¬ i = j := fun h => hj h.symm
                  simp [hj, this]
              omega
        · exact inv_bad drop
      · exact h0
    | poll =>
      simp only [poll]
      split
      · exact h0
      · rename_i x q hq
        refine inv_mono h (fun _ h => h) ?_ ?_
        · intro j hj
          rw [hq]
          simp only [List.mem_append, List.mem_cons, List.not_mem_nil, or_false] at hj ⊢
          rcases hj with hj | hj | hj
          · exact .inl (.inr hj)
          · exact .inr hj
          · exact .inl (.inl hj)
        · intro j
          rw [hq]
          simp only [List.count_append, List.count_cons, List.count_nil]
          omega

theorem inv_run : ∀ (es : List Event) (s : State) (past : List Event), Inv s past →
    Inv (run s es) (past ++ es)
  | [], s, past, h => by rw [List.append_nil]; exact h
  | e :: es, s, past, h => by
    have := inv_run es (step s e) (past ++ [e]) (inv_step h e)
    rw [List.append_assoc] at this
    exact this

theorem inv_init (k : Kind) : Inv (init k) [] := by
  constructor <;> simp [init]

/-- While one attempt dawdles, a QUIC listener lets nobody else in. -/
theorem dawdle_step {s : State} {j : Nat} (hk : s.kind = .quic) (hw : s.waiting = [j])
    (hq : s.queue = []) (e : Event) (he : ∀ ok, e ≠ .hand j ok) :
    (step s e).waiting = [j] ∧ (step s e).queue = [] ∧ (step s e).out = s.out := by
  unfold step
  split
  · exact ⟨hw, hq, rfl⟩
  · cases e with
    | arrive i => exact ⟨hw, hq, rfl⟩
    | accept o =>
      simp only [accept]
      split
      · exact ⟨hw, hq, rfl⟩
      · split
        · rw [if_neg (by simp [hw])]; exact ⟨hw, hq, rfl⟩
        · rename_i h; rw [hk] at h; cases h
        · rename_i h _; exact absurd hk h
    | acceptFails => exact ⟨hw, hq, rfl⟩
    | hand i ok =>
      have hij : ¬ i = j := fun h => he ok (by rw [h])
      simp [hand, hw, hij, hq]
    | poll => simp [poll, hq, hw]

theorem dawdle_run {j : Nat} : ∀ (es : List Event) (s : State), s.kind = .quic → s.waiting = [j] →
    s.queue = [] → (∀ ok, Event.hand j ok ∉ es) → (run s es).out = s.out
  | [], _, _, _, _, _ => rfl
  | e :: es, s, hk, hw, hq, he => by
    have h := dawdle_step hk hw hq e (fun ok h => he ok (by rw [h]; exact List.mem_cons_self))
    show (run (step s e) es).out = s.out
    rw [dawdle_run es (step s e) (by rw [kind_step]; exact hk) h.1 h.2.1
      (fun ok h => he ok (List.mem_cons_of_mem _ h)), h.2.2]

end Verif.Listen

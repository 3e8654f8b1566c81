import Verif.Uring.Spec

namespace Verif.Uring

theorem run_append : ∀ (es fs : List Event) (s : State), run s (es ++ fs) = run (run s es) fs
  | [], _, _ => rfl
  | e :: es, fs, s => run_append es fs (step s e)

theorem run_keeps {P : State → Prop} (h : ∀ s e, P s → P (step s e)) :
    ∀ (es : List Event) (s : State), P s → P (run s es)
  | [], _, hs => hs
  | e :: es, s, hs => run_keeps h es (step s e) (h s e hs)

/-! ## Where slots are -/

/-- How often a slot is anywhere. -/
def cnt (s : State) (k : Nat) : Nat :=
  s.sq.count k + s.armed.count k + (s.cq.map Prod.fst).count k + (s.batch.map Prod.fst).count k

theorem cnt_places (s : State) (k : Nat) : s.places.count k = cnt s k := by
  simp [State.places, cnt, List.count_append, Nat.add_assoc]

/-- Each slot is at one place, before the ring is dropped; what is worked on is only there while it
is worked on; nothing is written to freed memory before the slots are dropped. -/
structure Ok (n : Nat) (s : State) : Prop where
  slots : s.phase ≠ .over → ∀ k, cnt s k = if k < n then 1 else 0
  batch : s.phase ≠ .handle → s.batch = []
  wild : s.phase ≠ .freed → s.phase ≠ .over → s.wild = 0

theorem count_range (n k : Nat) : (List.range n).count k = if k < n then 1 else 0 := by
  induction n with
  | zero => simp
  | succ n ih =>
    rw [List.range_succ, List.count_append, ih, List.count_singleton]
    by_cases h1 : k < n
    · have : (n == k) = false := by simp; omega
      simp [h1, this]; omega
    · by_cases h2 : n = k
      · subst h2; simp
      · have : (n == k) = false := by simp [h2]
        simp [h1, this]; omega

theorem ok_init (n : Nat) : Ok n (init n) :=
  ⟨fun _ k => by simp only [cnt, init, List.map_nil, List.count_nil, count_range]; omega, fun _ => rfl, fun _ _ => rfl⟩

theorem cnt_complete (s : State) (i : Nat) (x : Item) (k : Nat) :
    cnt (complete s i x) k = cnt s k := by
  unfold complete
  split
  · rename_i hi
    simp only [cnt, List.map_append, List.map_cons, List.map_nil, List.count_append,
      List.count_singleton, List.count_erase]
    have := List.count_pos_iff.mpr hi
    by_cases h : i = k
    · subst h; simp; omega
    · simp [h]
  · rfl

theorem cnt_push (s : State) (i k : Nat) :
    cnt (push s i) k = cnt s k + if i = k then 1 else 0 := by
  unfold push
  split <;> simp only [cnt, List.count_append, List.count_singleton, beq_iff_eq] <;> omega

theorem cnt_thread (s : State) (h : (thread s).phase ≠ .over) (hb : s.phase ≠ .handle → s.batch = [])
    (k : Nat) : cnt (thread s) k = cnt s k := by
  unfold thread at h ⊢
  split
  · split
    · rfl
    · simp only [cnt, List.count_append, List.count_nil]; omega
  · rename_i hp
    have := hb (by rw [hp]; simp)
    simp only [cnt, this, List.map_nil, List.count_nil]; omega
  · split
    · rename_i i x rest hbt
      rw [take, cnt_push]
      simp only [cnt, hbt, List.map_cons, List.count_cons, beq_iff_eq]
      omega
    · split
      · rfl
      · simp only [cnt, List.count_append, List.count_nil]; omega
  · rfl
  · rename_i hp
    rw [hp] at h
    simp at h
  · rfl

theorem push_phase (s : State) (i : Nat) : (push s i).phase = s.phase ∧ (push s i).batch = s.batch ∧
    (push s i).wild = s.wild ∧ (push s i).out = s.out ∧ (push s i).cq = s.cq ∧
    (push s i).taken = s.taken ∧ (push s i).rxOpen = s.rxOpen ∧
    (push s i).shutdown = s.shutdown := by
  unfold push
  split <;> exact ⟨rfl, rfl, rfl, rfl, rfl, rfl, rfl, rfl⟩

theorem complete_phase (s : State) (i : Nat) (x : Item) :
    (complete s i x).phase = s.phase ∧ (complete s i x).batch = s.batch ∧
      (complete s i x).shutdown = s.shutdown := by
  unfold complete
  split <;> exact ⟨rfl, rfl, rfl⟩

theorem ok_step {n : Nat} (s : State) (e : Event) (h : Ok n s) : Ok n (step s e) := by
  obtain ⟨h1, h2, h3⟩ := h
  cases e with
  | complete i x =>
    have hp := complete_phase s i x
    refine ⟨?_, ?_, ?_⟩
    · intro ho k
      show cnt (complete s i x) k = _
      rw [cnt_complete]
      exact h1 (by rw [← hp.1]; exact ho) k
    · intro ho
      show (complete s i x).batch = []
      rw [hp.2.1]
      exact h2 (by rw [← hp.1]; exact ho)
    · intro hf ho
      have hf' : s.phase ≠ .freed := by rw [← hp.1]; exact hf
      have ho' : s.phase ≠ .over := by rw [← hp.1]; exact ho
      show (complete s i x).wild = 0
      unfold complete
      split
      · simp [hf', h3 hf' ho']
      · exact h3 hf' ho'
  | thread =>
    refine ⟨?_, ?_, ?_⟩
    · intro ho k
      show cnt (thread s) k = _
      rw [cnt_thread s ho h2]
      refine h1 ?_ k
      intro hs
      apply ho
      show (thread s).phase = .over
      unfold thread
      simp [hs]
    · intro ho
      show (thread s).batch = []
      have ho : (thread s).phase ≠ .handle := ho
      unfold thread at ho ⊢
      split
      · rename_i hp
        have := h2 (by rw [hp]; simp)
        split <;> exact this
      · rename_i hp; rw [hp] at ho; simp at ho
      · rename_i hp
        rw [hp] at ho
        simp only at ho
        split
        · rename_i hb
          rw [hb] at ho
          simp only [take, (push_phase _ _).1] at ho
          exact absurd hp ho
        · rename_i hb; split <;> exact hb
      all_goals rename_i hp; exact h2 (by rw [hp]; simp)
    · intro hf ho
      have hf : (thread s).phase ≠ .freed := hf
      have ho : (thread s).phase ≠ .over := ho
      show (thread s).wild = 0
      unfold thread at hf ho ⊢
      split
      · rename_i hp
        have := h3 (by rw [hp]; simp) (by rw [hp]; simp)
        split <;> exact this
      · rename_i hp; exact h3 (by rw [hp]; simp) (by rw [hp]; simp)
      · rename_i hp
        have := h3 (by rw [hp]; simp) (by rw [hp]; simp)
        split
        · rw [take, (push_phase _ _).2.2.1]; exact this
        · split <;> exact this
      · rename_i hp; rw [hp] at hf; simp at hf
      · rename_i hp; rw [hp] at ho; simp at ho
      · rename_i hp; rw [hp] at ho; exact absurd hp ho
  | ringFails =>
    show Ok n (ringFails s)
    unfold ringFails
    split
    · rename_i hp
      exact ⟨fun _ => h1 (by rw [hp]; simp), fun _ => h2 (by rw [hp]; simp),
        fun _ _ => h3 (by rw [hp]; simp) (by rw [hp]; simp)⟩
    · rename_i hp
      split
      · rename_i hb
        exact ⟨fun _ => h1 (by rw [hp]; simp), fun _ => hb,
          fun _ _ => h3 (by rw [hp]; simp) (by rw [hp]; simp)⟩
      · exact ⟨h1, h2, h3⟩
    · exact ⟨h1, h2, h3⟩
  | dropRx => exact ⟨h1, h2, h3⟩

theorem ok_run (n : Nat) (es : List Event) : Ok n (run (init n) es) :=
  run_keeps (fun s e h => ok_step s e h) es _ (ok_init n)

/-! ## What the receiver gets -/

structure Given (s : State) : Prop where
  all : s.rxOpen = true → s.out ++ (s.batch ++ s.cq).map Prod.snd = s.taken
  pre : s.out <+: s.taken
  rest : ∃ l, l ++ (s.batch ++ s.cq).map Prod.snd = s.taken ∧ s.out <+: l

theorem given_init (n : Nat) : Given (init n) :=
  ⟨fun _ => rfl, List.prefix_refl _, [], rfl, List.prefix_refl _⟩

theorem given_step (s : State) (e : Event) (h : Given s) (hb : s.phase ≠ .handle → s.batch = []) :
    Given (step s e) := by
  obtain ⟨h1, h2, l, h3, h4⟩ := h
  cases e with
  | complete i x =>
    show Given (complete s i x)
    unfold complete
    split
    · refine ⟨?_, List.IsPrefix.trans h2 (List.prefix_append _ _), l, ?_, h4⟩
      · intro hr
        have := h1 hr
        simp only [List.map_append] at this ⊢
        rw [← this]; simp
      · simp only [List.map_append] at h3 ⊢
        rw [← h3]; simp
    · exact ⟨h1, h2, l, h3, h4⟩
  | thread =>
    show Given (thread s)
    unfold thread
    split
    · split <;> exact ⟨h1, h2, l, h3, h4⟩
    · rename_i hp
      have hb := hb (by rw [hp]; simp)
      rw [hb] at h1 h3
      refine ⟨?_, h2, l, ?_, h4⟩
      · intro hr; simpa using h1 hr
      · simpa using h3
    · split
      · rename_i i x rest hbt
        rw [hbt] at h1 h3
        obtain ⟨_, q2, _, q4, q5, q6, q7, _⟩ := push_phase
          { s with
            batch := rest
            out := if s.rxOpen then s.out ++ [x] else s.out
            closed := s.closed || !s.rxOpen || x == none } i
        have h3' : (l ++ [x]) ++ (rest ++ s.cq).map Prod.snd = s.taken := by
          rw [← h3]; simp
        have h5 : (if s.rxOpen then s.out ++ [x] else s.out) <+: l ++ [x] := by
          split
          · rename_i hr
            have h6 := h1 hr
            rw [← h3] at h6
            have : s.out = l := List.append_cancel_right h6
            rw [this]
            exact List.prefix_refl _
          · exact List.IsPrefix.trans h4 (List.prefix_append _ _)
        refine ⟨?_, ?_, l ++ [x], ?_, ?_⟩
        · rw [take, q7, q4, q2, q5, q6]
          intro hr
          have hr : s.rxOpen = true := hr
          have := h1 hr
          rw [if_pos hr, ← this]
          simp
        · rw [take, q4, q6]
          refine List.IsPrefix.trans h5 ?_
          rw [← h3']
          exact List.prefix_append _ _
        · rw [take, q2, q5, q6]; exact h3'
        · rw [take, q4]; exact h5
      · split <;> exact ⟨h1, h2, l, h3, h4⟩
    all_goals exact ⟨h1, h2, l, h3, h4⟩
  | ringFails =>
    show Given (ringFails s)
    unfold ringFails
    split
    · exact ⟨h1, h2, l, h3, h4⟩
    · split <;> exact ⟨h1, h2, l, h3, h4⟩
    · exact ⟨h1, h2, l, h3, h4⟩
  | dropRx => exact ⟨fun hr => (Bool.noConfusion (hr : false = true)), h2, l, h3, h4⟩

theorem given_run (n : Nat) (es : List Event) : Given (run (init n) es) :=
  (run_keeps (P := fun s => Ok n s ∧ Given s)
    (fun s e h => ⟨ok_step s e h.1, given_step s e h.2 h.1.batch⟩) es _
    ⟨ok_init n, given_init n⟩).2

/-! ## The end of the loop -/

theorem thread_shutdown (s : State) : (thread s).shutdown = s.shutdown := by
  unfold thread
  split
  · split <;> rfl
  · rfl
  · split
    · rw [take]; exact (push_phase _ _).2.2.2.2.2.2.2
    · split <;> rfl
  all_goals rfl

theorem step_shutdown (s : State) (e : Event) (h : s.shutdown = true) :
    (step s e).shutdown = true := by
  cases e with
  | complete i x => exact (complete_phase s i x).2.2.trans h
  | thread => exact (thread_shutdown s).trans h
  | ringFails =>
    show (ringFails s).shutdown = true
    unfold ringFails
    split
    · exact h
    · split <;> exact h
    · exact h
  | dropRx => rfl

theorem dropped_shutdown : ∀ (es : List Event) (s : State), .dropRx ∈ es →
    (run s es).shutdown = true
  | [], _, h => by simp at h
  | e :: es, s, h => by
    rcases List.mem_cons.mp h with h | h
    · subst h
      exact run_keeps (P := fun s => s.shutdown = true) step_shutdown es _ rfl
    · exact dropped_shutdown es (step s e) h

theorem handle_ends : ∀ (d : Nat) (s : State), s.batch.length ≤ d → s.phase = .handle →
    s.shutdown = true → ∃ k, (run s (List.replicate k .thread)).phase = .leaving := by
  intro d
  induction d with
  | zero =>
    intro s hd hp hs
    have hb : s.batch = [] := List.length_eq_zero_iff.mp (by omega)
    by_cases hc : s.closed = true
    · refine ⟨1, ?_⟩
      show (thread s).phase = .leaving
      unfold thread
      simp [hp, hb, hc]
    · refine ⟨2, ?_⟩
      show (thread (thread s)).phase = .leaving
      have h1 : thread s = { s with
          phase := .check
          armed := s.armed ++ s.sq
          sq := [] } := by
        rw [thread, hp]
        simp only [hb, hc]
        rfl
      rw [h1]
      unfold thread
      simp [hs]
  | succ d ih =>
    intro s hd hp hs
    cases hb : s.batch with
    | nil =>
      have hb0 : s.batch.length ≤ d := by rw [hb]; exact Nat.zero_le _
      exact ih s hb0 hp hs
    | cons a rest =>
      obtain ⟨i, x⟩ := a
      have h1 : thread s = take s i x rest := by
        rw [thread, hp]
        simp only [hb]
      have q := push_phase
        { s with
          batch := rest
          out := if s.rxOpen then s.out ++ [x] else s.out
          closed := s.closed || !s.rxOpen || x == none } i
      obtain ⟨k, hk⟩ := ih (thread s)
        (by rw [h1, take, q.2.1]; rw [hb] at hd; simp at hd; exact hd)
        (by rw [h1, take, q.1]; exact hp) (by rw [thread_shutdown]; exact hs)
      exact ⟨k + 1, hk⟩

/-! ## Why the loop ends -/

/-- Nobody stops the thread: it works until an error is handed on. -/
structure Free (s : State) : Prop where
  rx : s.rxOpen = true
  sd : s.shutdown = false
  handle : s.phase = .handle → (s.closed = true ↔ none ∈ s.out)
  quiet : s.phase = .check ∨ s.phase = .reap → none ∉ s.out
  left : ¬ s.looping → none ∈ s.out

theorem push_closed (s : State) (i : Nat) : (push s i).closed = s.closed := by
  unfold push
  split <;> rfl

theorem free_step (s : State) (e : Event) (h : Free s) (hd : e ≠ .dropRx) (hr : e ≠ .ringFails) :
    Free (step s e) := by
  obtain ⟨h1, h2, h3, h4, h5⟩ := h
  cases e with
  | complete i x =>
    show Free (complete s i x)
    unfold complete
    split <;> exact ⟨h1, h2, h3, h4, h5⟩
  | thread =>
    show Free (thread s)
    unfold thread
    split
    · rename_i hp
      have := h4 (.inl hp)
      simp only [h2]
      exact ⟨h1, rfl, fun h => by simp at h, fun _ => this, fun h => absurd (.inr (.inl rfl)) h⟩
    · rename_i hp
      have := h4 (.inr hp)
      exact ⟨h1, h2, fun _ => ⟨fun h => by simp at h, fun h => absurd h this⟩,
        fun h => by simp at h, fun h => absurd (.inr (.inr rfl)) h⟩
    · rename_i hp
      have hc := h3 hp
      split
      · rename_i i x rest hbt
        obtain ⟨q1, _, _, q4, _, _, q7, q8⟩ := push_phase
          { s with
            batch := rest
            out := if s.rxOpen then s.out ++ [x] else s.out
            closed := s.closed || !s.rxOpen || x == none } i
        rw [take]
        refine ⟨q7.trans h1, q8.trans h2, ?_, ?_, ?_⟩
        · intro _
          rw [q4, push_closed]
          cases x <;> simp [h1, hc]
        · rw [q1]
          intro h
          simp [hp] at h
        · intro h
          exact absurd (.inr (.inr (q1.trans hp))) h
      · split
        · rename_i hcl
          exact ⟨h1, h2, fun h => by simp at h, fun h => by simp at h, fun _ => hc.mp hcl⟩
        · rename_i hcl
          exact ⟨h1, h2, fun h => by simp at h, fun _ hm => hcl (hc.mpr hm),
            fun h => absurd (.inl rfl) h⟩
    · rename_i hp
      have := h5 (by simp [State.looping, hp])
      exact ⟨h1, h2, fun h => by simp at h, fun h => by simp at h, fun _ => this⟩
    · rename_i hp
      have := h5 (by simp [State.looping, hp])
      exact ⟨h1, h2, fun h => by simp at h, fun h => by simp at h, fun _ => this⟩
    · exact ⟨h1, h2, h3, h4, h5⟩
  | ringFails => exact absurd rfl hr
  | dropRx => exact absurd rfl hd

theorem free_run (n : Nat) : ∀ (es : List Event) (s : State), Free s → .dropRx ∉ es →
    .ringFails ∉ es → Free (run s es)
  | [], _, h, _, _ => h
  | e :: es, s, h, hd, hr => by
    refine free_run n es (step s e) (free_step s e h ?_ ?_) (fun h => hd (List.mem_cons_of_mem _ h))
      (fun h => hr (List.mem_cons_of_mem _ h))
    · rintro rfl; exact hd List.mem_cons_self
    · rintro rfl; exact hr List.mem_cons_self

theorem free_init (n : Nat) : Free (init n) :=
  ⟨rfl, rfl, fun h => by simp [init] at h, fun _ => by simp [init],
    fun h => absurd (.inl rfl) h⟩

end Verif.Uring

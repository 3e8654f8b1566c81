import Verif.Inbound.Spec

namespace Verif.Inbound

theorem run_append : ∀ (es fs : List Event) (s : State), run s (es ++ fs) = run (run s es) fs
  | [], _, _ => rfl
  | e :: es, fs, s => run_append es fs (step s e)

/-! ## Every packet is somewhere -/

structure Inv (s : State) (past : List Event) : Prop where
  count : ∀ p, (arrived past).count p =
    s.wire.count p + s.busy.count p + s.done.count p + s.lapsed.count p
  order : s.begun ++ s.wire = arrived past
  limit : s.busy.length ≤ s.limit
  token : ∀ k ∈ s.tokens, ∃ q ∈ s.done, q.work = .token k
  waited : ∀ p ∈ s.done, ∀ k, p.work = .waits k → k ∈ s.tokens
  passed : ∀ p ∈ s.done, ∀ k, p.work = .token k → k ∈ s.tokens
  given : ∀ p ∈ s.lapsed, isWait p.work = true

theorem arrived_append : ∀ es fs, arrived (es ++ fs) = arrived es ++ arrived fs
  | [], _ => rfl
  | .arrive p :: es, fs => by simp [arrived, arrived_append es fs]
  | .take :: es, fs => by simp [arrived, arrived_append es fs]
  | .finish p :: es, fs => by simp [arrived, arrived_append es fs]
  | .lapse p :: es, fs => by simp [arrived, arrived_append es fs]

theorem inv_init (l : Nat) (t : Bool) : Inv (init l t) [] :=
  ⟨by simp [init, arrived], rfl, Nat.zero_le _, by simp [init], by simp [init],
    by simp [init], by simp [init]⟩

theorem count_erase_add {l : List Pkt} {p : Pkt} (h : p ∈ l) (q : Pkt) :
    l.count q = (l.erase p).count q + [p].count q := by
  rw [(List.perm_cons_erase h).count_eq q, List.count_cons, List.count_singleton]

theorem inv_step {s : State} {past : List Event} (h : Inv s past) (e : Event) :
    Inv (step s e) (past ++ [e]) := by
  cases e with
  | arrive p =>
    refine ⟨?_, ?_, h.limit, h.token, h.waited, h.passed, h.given⟩
    · intro q
      have := h.count q
      rw [arrived_append, List.count_append]
      simp only [step, arrive, List.count_append, arrived]
      omega
    · rw [arrived_append]
      simp only [step, arrive, arrived]
      rw [← h.order, List.append_assoc]
  | take =>
    have ha : arrived (past ++ [.take]) = arrived past := by
      rw [arrived_append]; simp [arrived]
    simp only [step, take]
    split
    · rename_i hl
      split
      · exact ⟨by rw [ha]; exact h.count, by rw [ha]; exact h.order, h.limit, h.token, h.waited, h.passed, h.given⟩
      · rename_i p w hw
        refine ⟨?_, ?_, ?_, h.token, h.waited, h.passed, h.given⟩
        · intro q
          have := h.count q
          rw [ha]
          rw [hw, show p :: w = [p] ++ w from rfl, List.count_append] at this
          simp only [List.count_append]
          omega
        · rw [ha, ← h.order, hw, List.append_assoc]; rfl
        · simp only [List.length_append, List.length_singleton]; omega
    · exact ⟨by rw [ha]; exact h.count, by rw [ha]; exact h.order, h.limit, h.token, h.waited, h.passed, h.given⟩
  | finish p =>
    have ha : arrived (past ++ [.finish p]) = arrived past := by
      rw [arrived_append]; simp [arrived]
    simp only [step, finish]
    split
    · rename_i hp
      refine ⟨?_, by rw [ha]; exact h.order, ?_, ?_, ?_, ?_, h.given⟩
      · intro q
        have := h.count q
        have h1 := count_erase_add hp.1 q
        rw [ha]
        simp only [List.count_append]
        omega
      · have := h.limit
        have h1 := List.length_erase_of_mem hp.1
        show (s.busy.erase p).length ≤ s.limit
        omega
      · intro k hk
        rcases List.mem_append.mp hk with hk | hk
        · obtain ⟨q, hq, hw⟩ := h.token k hk
          exact ⟨q, List.mem_append_left _ hq, hw⟩
        · refine ⟨p, List.mem_append_right _ (List.mem_singleton.mpr rfl), ?_⟩
          cases hw : p.work <;> rw [hw] at hk <;> simp [passed] at hk
          rw [hk]
      · intro q hq k hk
        rcases List.mem_append.mp hq with hq | hq
        · exact List.mem_append_left _ (h.waited q hq k hk)
        · rw [List.mem_singleton] at hq
          subst hq
          have := hp.2
          simp only [ready, hk] at this
          exact List.mem_append_left _ (List.contains_iff_mem.mp this)
      · intro q hq k hk
        rcases List.mem_append.mp hq with hq | hq
        · exact List.mem_append_left _ (h.passed q hq k hk)
        · rw [List.mem_singleton] at hq
          subst hq
          exact List.mem_append_right _ (by rw [hk]; exact List.mem_singleton.mpr rfl)
    · exact ⟨by rw [ha]; exact h.count, by rw [ha]; exact h.order, h.limit, h.token, h.waited, h.passed, h.given⟩
  | lapse p =>
    have ha : arrived (past ++ [.lapse p]) = arrived past := by
      rw [arrived_append]; simp [arrived]
    simp only [step, lapse]
    split
    · rename_i hp
      refine ⟨?_, by rw [ha]; exact h.order, ?_, h.token, h.waited, h.passed, ?_⟩
      · intro q
        have := h.count q
        have h1 := count_erase_add hp.2.1 q
        rw [ha]
        simp only [List.count_append]
        omega
      · have := h.limit
        have h1 := List.length_erase_of_mem hp.2.1
        show (s.busy.erase p).length ≤ s.limit
        omega
      · intro q hq
        rcases List.mem_append.mp hq with hq | hq
        · exact h.given q hq
        · rw [List.mem_singleton] at hq
          rw [hq]; exact hp.2.2
    · exact ⟨by rw [ha]; exact h.count, by rw [ha]; exact h.order, h.limit, h.token, h.waited, h.passed, h.given⟩

theorem inv_run : ∀ (es : List Event) (s : State) (past : List Event), Inv s past →
    Inv (run s es) (past ++ es)
  | [], s, past, h => by rw [List.append_nil]; exact h
  | e :: es, s, past, h => by
    have := inv_run es (step s e) (past ++ [e]) (inv_step h e)
    rw [List.append_assoc] at this
    exact this

theorem inv_reach (l : Nat) (t : Bool) (es : List Event) : Inv (run (init l t) es) es := by
  have := inv_run es (init l t) [] (inv_init l t)
  rwa [List.nil_append] at this

theorem lapsed_wait (es : List Event) (l : Nat) (t : Bool) (q : Pkt) (k : Nat)
    (hk : q.work = .token k) : q ∉ (run (init l t) es).lapsed := by
  intro hm
  have := (inv_reach l t es).given q hm
  rw [hk] at this
  cases this

theorem fixed_step (s : State) (e : Event) : (step s e).limit = s.limit ∧ (step s e).timers = s.timers := by
  cases e <;> unfold step <;> simp only [arrive, take, finish, lapse] <;> (repeat' split) <;> simp

theorem fixed_run : ∀ (es : List Event) (s : State), (run s es).limit = s.limit ∧
    (run s es).timers = s.timers
  | [], _ => ⟨rfl, rfl⟩
  | e :: es, s => by
    have h1 := fixed_run es (step s e)
    have h2 := fixed_step s e
    exact ⟨h1.1.trans h2.1, h1.2.trans h2.2⟩

/-! ## A jam -/

theorem jam_step {s : State} (h : Jammed s) (e : Event)
    (he : s.timers = false ∨ ∀ p ∈ s.busy, e ≠ .lapse p) :
    Jammed (step s e) ∧ (step s e).done = s.done ∧ (step s e).busy = s.busy ∧
      (step s e).begun = s.begun ∧ (step s e).timers = s.timers := by
  cases e with
  | arrive p => exact ⟨h, rfl, rfl, rfl, rfl⟩
  | take =>
    have : ¬ s.busy.length < s.limit := by have := h.1; omega
    have hs : step s (.take) = s := by simp only [step, take, this, if_false]
    rw [hs]
    exact ⟨h, rfl, rfl, rfl, rfl⟩
  | finish p =>
    have : ¬ (p ∈ s.busy ∧ ready s p = true) := by
      rintro ⟨hp, hr⟩
      obtain ⟨k, hk, hn⟩ := h.2 p hp
      simp only [ready, hk] at hr
      exact hn (List.contains_iff_mem.mp hr)
    have hs : step s (.finish p) = s := by simp only [step, finish, this, if_false]
    rw [hs]
    exact ⟨h, rfl, rfl, rfl, rfl⟩
  | lapse p =>
    have : ¬ (s.timers = true ∧ p ∈ s.busy ∧ isWait p.work = true) := by
      rintro ⟨ht, hp, _⟩
      rcases he with he | he
      · rw [he] at ht; cases ht
      · exact he p hp rfl
    have hs : step s (.lapse p) = s := by simp only [step, lapse, this, if_false]
    rw [hs]
    exact ⟨h, rfl, rfl, rfl, rfl⟩

theorem jam_run : ∀ (es : List Event) (s : State), Jammed s →
    (s.timers = false ∨ ∀ p ∈ s.busy, Event.lapse p ∉ es) →
    Jammed (run s es) ∧ (run s es).done = s.done ∧ (run s es).busy = s.busy ∧
      (run s es).begun = s.begun
  | [], _, h, _ => ⟨h, rfl, rfl, rfl⟩
  | e :: es, s, h, he => by
    obtain ⟨h1, h2, h3, h4, h5⟩ := jam_step h e (he.imp_right fun he p hp hx =>
      he p hp (by rw [hx]; exact List.mem_cons_self ..))
    have := jam_run es (step s e) h1 (by
      rw [h5, h3]
      exact he.imp_right fun he p hp hm => he p hp (List.mem_cons_of_mem _ hm))
    exact ⟨this.1, this.2.1.trans h2, this.2.2.1.trans h3, this.2.2.2.trans h4⟩

/-- `n` packets that start hole punches. -/
def starts : Nat → List Pkt
  | 0 => []
  | n + 1 => starts n ++ [⟨n, .waits n⟩]

/-- The packets they wait for. -/
def answers : Nat → List Pkt
  | 0 => []
  | n + 1 => answers n ++ [⟨n, .token n⟩]

theorem starts_length : ∀ n, (starts n).length = n
  | 0 => rfl
  | n + 1 => by simp [starts, starts_length n]

theorem starts_waits : ∀ n, ∀ p ∈ starts n, ∃ k, p.work = .waits k
  | 0, _, h => by cases h
  | n + 1, p, h => by
    rcases List.mem_append.mp h with h | h
    · exact starts_waits n p h
    · rw [List.mem_singleton] at h; exact ⟨n, by rw [h]⟩

theorem starts_lt : ∀ n, ∀ p ∈ starts n, ∀ k, p.work = .waits k → k < n
  | 0, _, h, _, _ => by cases h
  | n + 1, p, h, k, hk => by
    rcases List.mem_append.mp h with h | h
    · have := starts_lt n p h k hk; omega
    · rw [List.mem_singleton] at h
      rw [h] at hk
      cases hk
      omega

theorem starts_mem : ∀ n k, k < n → (⟨k, .waits k⟩ : Pkt) ∈ starts n
  | 0, _, h => by omega
  | n + 1, k, h => by
    by_cases hk : k = n
    · subst hk; exact List.mem_append_right _ (List.mem_singleton.mpr rfl)
    · exact List.mem_append_left _ (starts_mem n k (by omega))

theorem answers_mem : ∀ n k, k < n → (⟨k, .token k⟩ : Pkt) ∈ answers n
  | 0, _, h => by omega
  | n + 1, k, h => by
    by_cases hk : k = n
    · subst hk; exact List.mem_append_right _ (List.mem_singleton.mpr rfl)
    · exact List.mem_append_left _ (answers_mem n k (by omega))

theorem arrives : ∀ (ps : List Pkt) (s : State),
    run s (ps.map .arrive) = { s with wire := s.wire ++ ps }
  | [], s => by simp [run]
  | p :: ps, s => by
    refine (arrives ps (step s (.arrive p))).trans ?_
    simp [step, arrive]

theorem arrived_map : ∀ ps : List Pkt, arrived (ps.map .arrive) = ps
  | [] => rfl
  | p :: ps => by simp [arrived, arrived_map ps]

theorem arrived_takes : ∀ n, arrived (List.replicate n .take) = []
  | 0 => rfl
  | n + 1 => by simp [List.replicate, arrived, arrived_takes n]

theorem takes : ∀ (ps w : List Pkt) (s : State), s.wire = ps ++ w →
    s.busy.length + ps.length ≤ s.limit →
    run s (List.replicate ps.length .take) =
      { s with
        wire := w
        busy := s.busy ++ ps
        begun := s.begun ++ ps }
  | [], w, s, h, _ => by
    cases s
    simp only [List.nil_append] at h
    subst h
    simp [run]
  | p :: ps, w, s, h, hl => by
    have h1 : step s .take =
        { s with
          wire := ps ++ w
          busy := s.busy ++ [p]
          begun := s.begun ++ [p] } := by
      have : s.busy.length < s.limit := by simp at hl; omega
      simp [step, take, this, h]
    show run (step s .take) (List.replicate ps.length .take) = _
    rw [h1]
    refine (takes ps w _ rfl ?_).trans ?_
    · simp only [List.length_append, List.length_singleton]
      simp only [List.length_cons] at hl
      omega
    · simp

/-! ## Working on -/

theorem punches_append (l m : List Pkt) : punches (l ++ m) = punches l + punches m := by
  simp [punches, List.countP_append]

theorem countP_le_of_count {f : Pkt → Bool} : ∀ (l m : List Pkt), (∀ p, l.count p ≤ m.count p) →
    l.countP f ≤ m.countP f := by
  intro l
  induction l with
  | nil => intro m _; exact Nat.zero_le _
  | cons a l ih =>
    intro m h
    have ha : a ∈ m := by
      have := h a
      rw [List.count_cons_self] at this
      exact List.count_pos_iff.mp (by omega)
    rw [(List.perm_cons_erase ha).countP_eq, List.countP_cons, List.countP_cons]
    have := ih (m.erase a) (fun p => by
      have h1 := h p
      rw [(List.perm_cons_erase ha).count_eq p, List.count_cons, List.count_cons] at h1
      omega)
    omega

/-- Fewer hole punches are under way than arrived. -/
theorem busy_punches {s : State} {past : List Event} (h : Inv s past) :
    punches s.busy ≤ punches (arrived past) :=
  countP_le_of_count _ _ fun p => by have := h.count p; omega

theorem arrived_own : ∀ es : List Event, (∀ e ∈ es, Own e) → arrived es = []
  | [], _ => rfl
  | e :: es, h => by
    have h1 := arrived_own es (fun x hx => h x (List.mem_cons_of_mem _ hx))
    have h2 := h e (List.mem_cons_self ..)
    cases e <;> simp_all [arrived, Own]

/-- Nothing can be worked on any more without another packet. -/
def Rest (s : State) : Prop :=
  s.wire = [] ∧ ∀ p ∈ s.busy, ready s p = false

theorem not_ready {s : State} {p : Pkt} (h : ready s p = false) : isWait p.work = true := by
  cases hw : p.work <;> simp_all [ready, isWait]

theorem work_on : ∀ (n : Nat) (s : State) (past : List Event), Inv s past →
    2 * s.wire.length + s.busy.length ≤ n → punches (arrived past) < s.limit →
    ∃ es, (∀ e ∈ es, Own e) ∧ Rest (run s es) := by
  intro n
  induction n with
  | zero =>
    intro s past h hn _
    refine ⟨[], by simp, ?_, ?_⟩
    · exact List.eq_nil_of_length_eq_zero (show s.wire.length = 0 by omega)
    · have : s.busy = [] := List.eq_nil_of_length_eq_zero (by omega)
      show ∀ p ∈ s.busy, _
      rw [this]; simp
  | succ n ih =>
    intro s past h hn hp
    by_cases hr : ∃ p ∈ s.busy, ready s p = true
    · obtain ⟨p, hb, hr⟩ := hr
      have h1 : step s (.finish p) =
          { s with
            busy := s.busy.erase p
            tokens := s.tokens ++ passed p.work
            done := s.done ++ [p] } := by
        simp only [step, finish]
        rw [if_pos ⟨hb, hr⟩]
      have hlen := List.length_erase_of_mem hb
      have hpos : 0 < s.busy.length := List.length_pos_of_mem hb
      obtain ⟨es, ho, hrest⟩ := ih (step s (.finish p)) (past ++ [.finish p]) (inv_step h _)
        (by rw [h1]; simp only; omega)
        (by rw [arrived_append, (fixed_step s _).1]; simpa [arrived] using hp)
      refine ⟨.finish p :: es, ?_, hrest⟩
      intro e he
      rcases List.mem_cons.mp he with rfl | he
      · exact True.intro
      · exact ho e he
    · have hall : ∀ p ∈ s.busy, ready s p = false := fun p hb => by
        cases hx : ready s p with
        | false => rfl
        | true => exact absurd ⟨p, hb, hx⟩ hr
      cases hw : s.wire with
      | nil => exact ⟨[], by simp, hw, hall⟩
      | cons p w =>
        have hlt : s.busy.length < s.limit := by
          have h1 : punches s.busy = s.busy.length := by
            unfold punches
            rw [List.countP_eq_length]
            exact fun p hb => not_ready (hall p hb)
          have h2 := busy_punches h
          omega
        have h1 : step s .take =
            { s with
              wire := w
              busy := s.busy ++ [p]
              begun := s.begun ++ [p] } := by
          simp [step, take, hlt, hw]
        obtain ⟨es, ho, hrest⟩ := ih (step s .take) (past ++ [.take]) (inv_step h _)
          (by rw [h1]; simp only [List.length_append, List.length_singleton]
              rw [hw, List.length_cons] at hn; omega)
          (by rw [arrived_append, (fixed_step s _).1]; simpa [arrived] using hp)
        refine ⟨.take :: es, ?_, hrest⟩
        intro e he
        rcases List.mem_cons.mp he with rfl | he
        · exact True.intro
        · exact ho e he

theorem own_lapsed : ∀ (es : List Event) (s : State), (∀ e ∈ es, Own e) →
    (run s es).lapsed = s.lapsed
  | [], _, _ => rfl
  | e :: es, s, h => by
    refine (own_lapsed es (step s e) (fun x hx => h x (List.mem_cons_of_mem _ hx))).trans ?_
    have h2 := h e (List.mem_cons_self ..)
    cases e with
    | take => simp only [step, take]; (repeat' split) <;> rfl
    | finish p => simp only [step, finish]; split <;> rfl
    | arrive p => cases h2
    | lapse p => cases h2

/-- With time limits everything comes to an end. -/
theorem drain : ∀ (n : Nat) (s : State), s.timers = true → 0 < s.limit →
    2 * s.wire.length + s.busy.length ≤ n →
    ∃ es, (∀ e ∈ es, ∀ p, e ≠ .arrive p) ∧ (run s es).wire = [] ∧ (run s es).busy = [] := by
  intro n
  induction n with
  | zero =>
    intro s _ _ hn
    exact ⟨[], by simp, List.eq_nil_of_length_eq_zero (show s.wire.length = 0 by omega),
      List.eq_nil_of_length_eq_zero (show s.busy.length = 0 by omega)⟩
  | succ n ih =>
    intro s ht hl hn
    have go : ∀ e, (∀ p, e ≠ Event.arrive p) →
        2 * (step s e).wire.length + (step s e).busy.length ≤ n →
        ∃ es, (∀ e ∈ es, ∀ p, e ≠ .arrive p) ∧ (run s es).wire = [] ∧ (run s es).busy = [] := by
      intro e he hm
      obtain ⟨es, h1, h2⟩ := ih (step s e) ((fixed_step s e).2.trans ht)
        (by rw [(fixed_step s e).1]; exact hl) hm
      refine ⟨e :: es, ?_, h2⟩
      intro x hx
      rcases List.mem_cons.mp hx with rfl | hx
      · exact he
      · exact h1 x hx
    cases hb : s.busy with
    | nil =>
      cases hw : s.wire with
      | nil => exact ⟨[], by simp, hw, hb⟩
      | cons p w =>
        refine go .take (by simp) ?_
        simp only [step, take, hb, List.length_nil, hl, if_true, hw, List.nil_append,
          List.length_singleton]
        simp only [hw, hb, List.length_cons, List.length_nil] at hn
        omega
    | cons p b =>
      have hm : p ∈ s.busy := by rw [hb]; exact List.mem_cons_self ..
      have hlen := List.length_erase_of_mem hm
      have hpos : 0 < s.busy.length := List.length_pos_of_mem hm
      cases hwait : isWait p.work with
      | true =>
        refine go (.lapse p) (by simp) ?_
        simp only [step, lapse]
        rw [if_pos ⟨ht, hm, hwait⟩]
        simp only
        omega
      | false =>
        have hr : ready s p = true := by
          cases hx : ready s p with
          | true => rfl
          | false => rw [not_ready hx] at hwait; cases hwait
        refine go (.finish p) (by simp) ?_
        simp only [step, finish]
        rw [if_pos ⟨hm, hr⟩]
        simp only
        omega

end Verif.Inbound

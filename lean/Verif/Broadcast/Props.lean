import Verif.Broadcast.Model
/-!
# C144-C146: the kernel for groups

* C144: the function of the user runs once, and the result of the kernel is its result.
* C145: a request to register is answered or handed on.
* C146: a client that joins finds the group if it is there.
-/
namespace Verif.Broadcast

theorem requests_append (me : Nat) (l r : List Ev) : requests me (l ++ r) = requests me l ++ requests me r := by
  induction l with
  | nil => rfl
  | cons e l ih =>
    cases e with
    | postRegister id t q =>
      cases q
      · simp [requests, ih]
      · by_cases h : t = me <;> simp [requests, h, ih]
    | _ => simp [requests, ih]

/-- What holds in every state. -/
structure Inv (s : St) : Prop where
  once : s.runs ≤ 1
  notYet : s.phase = .before ∨ s.phase = .waiting → s.runs = 0
  ran : s.phase = .running → s.runs = 1
  doneRan : s.fxDone = true → s.runs = 1
  success : s.phase = .finished true → s.fxDone = true ∨ (s.subEnded = true ∧ s.runs = 0)
  accepting : s.accept = true → s.phase = .finished true → s.runs = 0
  idle : s.accept = false → s.answered = [] ∧ (s.phase = .running → s.fxDone = false)
  routed : s.phase ≠ .before → s.route = s.accept
  notRouted : s.phase = .before → s.route = false ∧ s.sub = [] ∧ s.reg = [] ∧ s.arrived = [] ∧ s.answered = []
  count : (∀ b, s.phase ≠ .finished b) → ∀ id,
    s.answered.count id + (requests s.me s.reg).count id + (requests s.me s.sub).count id = s.arrived.count id
  only : ∀ id, s.answered.count id + (requests s.me s.reg).count id + (requests s.me s.sub).count id
    ≤ s.arrived.count id

theorem handle_requests (s : St) (e : Ev) (ok : Bool) :
    handle s e ok = s ∨
    (∃ id, e = .postRegister id s.me true ∧
      ((ok = true ∧ handle s e ok = { s with answered := s.answered ++ [id] }) ∨
       (ok = false ∧ handle s e ok = { s with phase := .finished false }))) := by
  cases e with
  | postRegister id t q =>
    cases q with
    | false => exact Or.inl rfl
    | true =>
      by_cases h : t = s.me
      · subst h
        refine Or.inr ⟨id, rfl, ?_⟩
        cases ok <;> simp [handle]
      · exact Or.inl (by simp [handle, h])
  | _ => exact Or.inl rfl

theorem requests_of_handle_same {s : St} {e : Ev} {ok : Bool}
    (h : ¬ ∃ id, e = .postRegister id s.me true) : requests s.me [e] = [] ∧ handle s e ok = s := by
  cases e with
  | postRegister id t q =>
    cases q with
    | false => exact ⟨rfl, rfl⟩
    | true =>
      by_cases ht : t = s.me
      · exact (h ⟨id, by rw [ht]⟩).elim
      · simp [requests, handle, ht]
  | _ => exact ⟨rfl, rfl⟩

theorem requests_cons (me : Nat) (e : Ev) (r : List Ev) : requests me (e :: r) = requests me [e] ++ requests me r :=
  requests_append me [e] r

theorem requests_post (me id : Nat) : requests me [.postRegister id me true] = [id] := by simp [requests]

theorem inv_begin (me : Nat) (accept : Bool) : Inv (begin me accept) := by
  constructor <;> simp [begin, requests]

theorem inv_step {s : St} (h : Inv s) (a : Act) : Inv (step s a) := by
  obtain ⟨h1, h2, h3, h4, h5, h6, h7, h8, h9, h10, h11⟩ := h
  obtain ⟨me, acc, route, phase, sub, ended, reg, fxd, runs, ans, inner, arr⟩ := s
  simp only at h1 h2 h3 h4 h5 h6 h7 h8 h9 h10 h11
  cases a with
  | kernel e =>
    cases e with
    | postRegister id t q =>
      cases route with
      | false => exact ⟨h1, h2, h3, h4, h5, h6, h7, h8, h9, h10, h11⟩
      | true =>
        have hb : phase ≠ .before := fun hb => by simp [hb] at h9
        refine ⟨h1, h2, h3, h4, h5, h6, h7, h8, fun hb' => (hb hb').elim, ?_, ?_⟩
        · intro hf i
          simp only [step, kernelEvent, if_true, requests_append, List.count_append]
          have := h10 hf i
          omega
        · intro i
          simp only [step, kernelEvent, if_true, requests_append, List.count_append]
          have := h11 i
          omega
    | _ => exact ⟨h1, h2, h3, h4, h5, h6, h7, h8, h9, h10, h11⟩
  | start =>
    by_cases hp : phase = .before
    · subst hp
      obtain ⟨_, e2, e3, e4, e5⟩ := h9 rfl
      have hr := h2 (Or.inl rfl)
      simp only [step, if_true]
      constructor <;> simp_all
    · simp only [step, if_neg hp]; exact ⟨h1, h2, h3, h4, h5, h6, h7, h8, h9, h10, h11⟩
  | subEvent e =>
    by_cases hp : phase ≠ .before ∧ ended = false
    · simp only [step, if_pos hp]
      refine ⟨h1, h2, h3, h4, h5, h6, h7, h8, fun hb' => (hp.1 hb').elim, ?_, ?_⟩
      · intro hf i
        simp only [requests_append, List.count_append]
        have := h10 hf i
        omega
      · intro i
        simp only [requests_append, List.count_append]
        have := h11 i
        omega
    · simp only [step, if_neg hp]; exact ⟨h1, h2, h3, h4, h5, h6, h7, h8, h9, h10, h11⟩
  | subEnd =>
    by_cases hp : phase ≠ .before
    · simp only [step, if_pos hp]
      refine ⟨h1, h2, h3, h4, ?_, h6, h7, h8, fun hb' => (hp hb').elim, h10, h11⟩
      intro hf
      rcases h5 hf with h | ⟨_, h⟩
      · exact Or.inl h
      · exact Or.inr ⟨rfl, h⟩
    · simp only [step, if_neg hp]; exact ⟨h1, h2, h3, h4, h5, h6, h7, h8, h9, h10, h11⟩
  | main =>
    by_cases hp : phase = .waiting
    · subst hp
      have hr := h2 (Or.inr rfl)
      have hfx : fxd = false := by cases fxd <;> simp_all
      simp only [step, if_true]
      cases sub with
      | nil =>
        simp only [mainTurn]
        by_cases he : ended = true
        · rw [if_pos he]
          constructor <;> simp_all
        · rw [if_neg he]; exact ⟨h1, h2, h3, h4, h5, h6, h7, h8, h9, h10, h11⟩
      | cons e r =>
        have c1 := h10 (by simp)
        cases e with
        | failure => simp only [mainTurn]; constructor <;> simp_all [requests]
        | postRegister id t q =>
          simp only [mainTurn]
          refine ⟨h1, h2, h3, h4, h5, h6, h7, h8, (fun hb => by cases hb), ?_, ?_⟩
          · intro _ i
            have := c1 i
            rw [requests_cons] at this
            simp only [requests_append, List.count_append] at this ⊢
            omega
          · intro i
            have := c1 i
            rw [requests_cons] at this
            simp only [requests_append, List.count_append] at this ⊢
            omega
        | channel => simp only [mainTurn]; constructor <;> simp_all [requests]
        | createFailed => simp only [mainTurn]; constructor <;> simp_all [requests]
        | other => simp only [mainTurn]; constructor <;> simp_all [requests]
    · simp only [step, if_neg hp]; exact ⟨h1, h2, h3, h4, h5, h6, h7, h8, h9, h10, h11⟩
  | fxReturn ok =>
    by_cases hp : phase = .running ∧ fxd = false
    · obtain ⟨hp1, hp2⟩ := hp
      subst hp1 hp2
      have hr := h3 rfl
      simp only [step, and_self, if_true]
      cases ok with
      | false => simp only [if_true]; constructor <;> simp_all
      | true =>
        simp only [Bool.true_eq_false, if_false]
        cases acc with
        | true => simp only [if_true]; constructor <;> simp_all
        | false => simp only [Bool.false_eq_true, if_false]; constructor <;> simp_all
    · simp only [step, if_neg hp]; exact ⟨h1, h2, h3, h4, h5, h6, h7, h8, h9, h10, h11⟩
  | acceptReg ok =>
    by_cases hp : phase = .running ∧ acc = true
    · obtain ⟨hp1, hp2⟩ := hp
      subst hp1 hp2
      have hr := h3 rfl
      have c1 := h10 (by simp)
      simp only [step, and_self, if_true]
      cases reg with
      | nil => exact ⟨h1, h2, h3, h4, h5, h6, h7, h8, h9, h10, h11⟩
      | cons e r =>
        simp only
        have c2 : ∀ i, _ := fun i => by have := c1 i; rw [requests_cons, List.count_append] at this; exact this
        by_cases hex : ∃ id, e = .postRegister id me true
        · obtain ⟨id, rfl⟩ := hex
          rw [requests_post] at c2
          cases ok with
          | true =>
            simp only [handle, if_true]
            refine ⟨h1, h2, h3, h4, h5, h6, (fun h => by cases h), h8, (fun hb => by cases hb), ?_, ?_⟩
            · intro _ i; have := c2 i; simp only [List.count_append]; omega
            · intro i; have := c2 i; simp only [List.count_append]; omega
          | false =>
            simp only [handle, if_true, Bool.false_eq_true, if_false]
            refine ⟨h1, by simp, by simp, h4, by simp, by simp, (fun h => by cases h), (fun _ => h8 (by simp)), by simp, ?_, ?_⟩
            · intro hf; exact (hf false rfl).elim
            · intro i; have := c2 i; simp only; omega
        · obtain ⟨q1, q2⟩ := requests_of_handle_same (s := ⟨me, true, route, .running, sub, ended, r, fxd, runs, ans, inner, arr⟩) (e := e) (ok := ok) hex
          rw [q2]
          simp only at q1
          rw [q1] at c2
          refine ⟨h1, h2, h3, h4, h5, h6, h7, h8, (fun hb => by cases hb), ?_, ?_⟩
          · intro _ i; have := c2 i; simpa using this
          · intro i; have := c2 i; simp only [List.count_nil, Nat.zero_add] at this; simp only; omega
    · simp only [step, if_neg hp]; exact ⟨h1, h2, h3, h4, h5, h6, h7, h8, h9, h10, h11⟩
  | acceptSub ok =>
    by_cases hp : phase = .running ∧ acc = true
    · obtain ⟨hp1, hp2⟩ := hp
      subst hp1 hp2
      have hr := h3 rfl
      have c1 := h10 (by simp)
      simp only [step, and_self, if_true]
      cases sub with
      | nil =>
        simp only
        by_cases he : ended = true
        · rw [if_pos he]; constructor <;> simp_all
        · rw [if_neg he]; exact ⟨h1, h2, h3, h4, h5, h6, h7, h8, h9, h10, h11⟩
      | cons e r =>
        simp only
        have c2 : ∀ i, _ := fun i => by have := c1 i; rw [requests_cons, List.count_append] at this; exact this
        by_cases hex : ∃ id, e = .postRegister id me true
        · obtain ⟨id, rfl⟩ := hex
          rw [requests_post] at c2
          cases ok with
          | true =>
            simp only [handle, if_true]
            refine ⟨h1, h2, h3, h4, h5, h6, (fun h => by cases h), h8, (fun hb => by cases hb), ?_, ?_⟩
            · intro _ i; have := c2 i; simp only [List.count_append]; omega
            · intro i; have := c2 i; simp only [List.count_append]; omega
          | false =>
            simp only [handle, if_true, Bool.false_eq_true, if_false]
            refine ⟨h1, by simp, by simp, h4, by simp, by simp, (fun h => by cases h), (fun _ => h8 (by simp)), by simp, ?_, ?_⟩
            · intro hf; exact (hf false rfl).elim
            · intro i; have := c2 i; simp only; omega
        · obtain ⟨q1, q2⟩ := requests_of_handle_same (s := ⟨me, true, route, .running, r, ended, reg, fxd, runs, ans, inner, arr⟩) (e := e) (ok := ok) hex
          rw [q2]
          simp only at q1
          rw [q1] at c2
          refine ⟨h1, h2, h3, h4, h5, h6, h7, h8, (fun hb => by cases hb), ?_, ?_⟩
          · intro _ i; have := c2 i; simpa using this
          · intro i; have := c2 i; simp only [List.count_nil, Nat.zero_add] at this; simp only; omega
    · simp only [step, if_neg hp]; exact ⟨h1, h2, h3, h4, h5, h6, h7, h8, h9, h10, h11⟩

theorem inv_run (as : List Act) : ∀ {s : St}, Inv s → Inv (run s as) := by
  induction as with
  | nil => intro s h; exact h
  | cons a as ih => intro s h; exact ih (inv_step h a)

theorem run_append (s : St) (as bs : List Act) : run s (as ++ bs) = run (run s as) bs := by simp [run]

/-! ## C144 -/

/-- The function of the user is called at most once, and only when a channel came; without registrations to accept the
kernel ends as soon as it returns, with its result; if the kernel ends with `Ok` although the function did not return
`Ok`, the subscription ended before there was a channel. Missing for the full statement: this case
(`C144_counterexample_silent`), and owners that accept registrations (`C144_counterexample_accepting`,
`C144_counterexample_cancelled`). -/
theorem C144_result_partial (me : Nat) (accept : Bool) (as : List Act) :
    let s := run (begin me accept) as
    s.runs ≤ 1 ∧
    (s.phase = .finished true → s.fxDone = true ∨ (s.subEnded = true ∧ s.runs = 0)) ∧
    (s.fxDone = true → s.runs = 1) ∧
    (s.accept = false → s.phase = .running → ∀ ok, (step s (.fxReturn ok)).phase = .finished ok) ∧
    (∀ ok, s.phase = .running → s.fxDone = false → ok = false → (step s (.fxReturn ok)).phase = .finished false) := by
  intro s
  have h : Inv s := inv_run as (inv_begin me accept)
  refine ⟨h.once, h.success, h.doneRan, ?_, ?_⟩
  · intro ha hp ok
    have hf := (h.idle ha).2 hp
    cases ok <;> simp [step, hp, hf, ha]
  · intro ok hp hf hok
    simp [step, hp, hf, hok]

example : (run (begin 1 false) [.start, .subEvent .other, .subEvent .channel, .main, .main, .fxReturn true]).phase
    = .finished true := by decide

/-- A client whose subscription ends before a channel came, for instance because its wish to join was refused: the kernel
reports success and the function of the user was never called. -/
theorem C144_counterexample_silent (me : Nat) (accept : Bool) (n : Nat) :
    let s := run (begin me accept) (.start :: List.replicate n (.subEvent .other) ++ .subEnd :: List.replicate (n + 1) .main)
    s.phase = .finished true ∧ s.runs = 0 := by
  have e1 : ∀ (n : Nat) (t : St), t.phase = .waiting → t.subEnded = false →
      run t (List.replicate n (.subEvent .other)) = { t with sub := t.sub ++ List.replicate n .other } := by
    intro n
    induction n with
    | zero => intro t _ _; simp [run]
    | succ n ih =>
      intro t hp he
      rw [List.replicate_succ]
      have : run t (Act.subEvent .other :: List.replicate n (.subEvent .other))
          = run (step t (.subEvent .other)) (List.replicate n (.subEvent .other)) := rfl
      rw [this]
      have hs : step t (.subEvent .other) = { t with sub := t.sub ++ [.other] } := by
        simp [step, hp, he, requests]
      rw [hs, ih _ (by exact hp) (by exact he)]
      simp [List.replicate_succ]
  have e2 : ∀ (n : Nat) (t : St), t.phase = .waiting → t.subEnded = true → t.sub = List.replicate n .other →
      (run t (List.replicate (n + 1) .main)).phase = .finished true ∧ (run t (List.replicate (n + 1) .main)).runs = t.runs := by
    intro n
    induction n with
    | zero =>
      intro t hp he hs
      simp [run, step, hp, mainTurn, hs, he]
    | succ n ih =>
      intro t hp he hs
      rw [List.replicate_succ]
      have : run t (Act.main :: List.replicate (n + 1) .main) = run (step t .main) (List.replicate (n + 1) .main) := rfl
      rw [this]
      have hst : step t .main = { t with sub := List.replicate n .other } := by
        simp [step, hp, mainTurn, hs, List.replicate_succ]
      rw [hst]
      exact ih _ (by exact hp) (by exact he) rfl
  intro s
  have hs : s = run (step (run (step (begin me accept) .start) (List.replicate n (.subEvent .other))) .subEnd)
      (List.replicate (n + 1) .main) := by
    show run (begin me accept) (.start :: List.replicate n (.subEvent .other) ++ .subEnd :: List.replicate (n + 1) .main) = _
    rw [run_append]
    rfl
  rw [hs, e1 n _ (by simp [step, begin]) (by simp [step, begin])]
  have := e2 n (step { step (begin me accept) .start with sub := (step (begin me accept) .start).sub ++ List.replicate n .other } .subEnd)
    (by simp [step, begin]) (by simp [step, begin]) (by simp [step, begin])
  exact ⟨this.1, this.2.trans (by simp [step, begin])⟩

/-- With `accept_registrations` the kernel never ends with `Ok` once the function of the user was called: whatever
happens afterwards, the acceptor does not end. -/
theorem C144_counterexample_accepting (me : Nat) (as : List Act) :
    let s := run (begin me true) as
    s.runs = 1 → s.phase ≠ .finished true := by
  intro s hr hp
  have h : Inv s := inv_run as (inv_begin me true)
  have ha : s.accept = true := by
    have : ∀ (as : List Act) (t : St), (run t as).accept = t.accept := by
      intro as
      induction as with
      | nil => intro t; rfl
      | cons a as ih =>
        intro t
        have : run t (a :: as) = run (step t a) as := rfl
        rw [this, ih]
        cases a with
        | kernel e => simp only [step, kernelEvent]; split <;> (try split) <;> rfl
        | start => simp only [step]; split <;> rfl
        | subEvent e => simp only [step]; split <;> rfl
        | subEnd => simp only [step]; split <;> rfl
        | main => simp only [step, mainTurn]; split <;> (try split) <;> (try split) <;> rfl
        | fxReturn ok => simp only [step]; split <;> (try split) <;> (try split) <;> rfl
        | acceptReg ok =>
          simp only [step]; split
          · split
            · rfl
            · rename_i e r _
              rcases handle_requests { t with reg := r } e ok with h | ⟨id, _, ⟨_, h⟩ | ⟨_, h⟩⟩ <;> rw [h]
          · rfl
        | acceptSub ok =>
          simp only [step]; split
          · split
            · split <;> rfl
            · rename_i e r _
              rcases handle_requests { t with sub := r } e ok with h | ⟨id, _, ⟨_, h⟩ | ⟨_, h⟩⟩ <;> rw [h]
          · rfl
    exact this as _
  have := h.accepting ha hp
  omega

/-- The case: the function has returned `Ok`. -/
example : (run (begin 1 true) [.start, .subEvent .channel, .main, .fxReturn true]).fxDone = true ∧
    (run (begin 1 true) [.start, .subEvent .channel, .main, .fxReturn true]).phase = .running := by decide

/-- One answer that cannot be sent ends the kernel of an owner, and with it the function of the user that still runs. -/
theorem C144_counterexample_cancelled (me id : Nat) (as : List Act)
    (hp : (run (begin me true) as).phase = .running) (hfx : (run (begin me true) as).fxDone = false)
    (hme : (run (begin me true) as).me = me) (ha : (run (begin me true) as).accept = true) :
    (run (begin me true) as).reg = [] →
    (run (run (begin me true) as) [.kernel (.postRegister id me true), .acceptReg false]).phase = .finished false ∧
    (run (run (begin me true) as) [.kernel (.postRegister id me true), .acceptReg false]).fxDone = false := by
  have h := inv_run as (inv_begin me true)
  generalize run (begin me true) as = s at *
  intro hreg
  have hroute : s.route = true := by rw [h.routed (by simp [hp]), ha]
  simp [run, step, kernelEvent, hroute, hp, ha, hreg, handle, hme, hfx]

example : let s := run (begin 7 true) [.start, .subEvent .channel, .main]
    s.phase = .running ∧ s.fxDone = false ∧ s.me = 7 ∧ s.accept = true ∧ s.reg = [] := by decide

/-! ## C145 -/

/-- Every request to this node which reaches the queue or the subscription is either answered or still in one of them,
until the kernel ends; at most the requests that arrived are answered; a node that does not accept answers none. Missing
for the full statement: requests before the flag is set (`C145_counterexample_early`), requests which the subscription of
a node that does not accept takes (`C145_counterexample_swallowed`). -/
theorem C145_answers_partial (me : Nat) (accept : Bool) (as : List Act) (id : Nat) :
    let s := run (begin me accept) as
    ((∀ b, s.phase ≠ .finished b) →
      s.answered.count id + (requests s.me s.reg).count id + (requests s.me s.sub).count id = s.arrived.count id) ∧
    s.answered.count id ≤ s.arrived.count id ∧
    (s.accept = false → s.answered = []) := by
  intro s
  have h : Inv s := inv_run as (inv_begin me accept)
  refine ⟨fun hf => h.count hf id, ?_, fun ha => (h.idle ha).1⟩
  have := h.only id
  show List.count id s.answered ≤ _
  omega

/-- Turns of the acceptor which succeed. -/
theorem C145_drained_partial (s : St) (hp : s.phase = .running) (ha : s.accept = true) :
    let t := run s (List.replicate s.reg.length (.acceptReg true) ++ List.replicate s.sub.length (.acceptSub true))
    t.reg = [] ∧ t.sub = [] ∧ t.answered = s.answered ++ requests s.me s.reg ++ requests s.me s.sub ∧ t.phase = .running := by
  have e1 : ∀ (l : List Ev) (s : St), s.phase = .running → s.accept = true → s.reg = l →
      run s (List.replicate l.length (.acceptReg true))
        = { s with reg := [], answered := s.answered ++ requests s.me l } := by
    intro l
    induction l with
    | nil => intro s _ _ hr; obtain ⟨me, acc, route, phase, sub, ended, reg, fxd, runs, ans, inner, arr⟩ := s; simp only at hr; subst hr; simp [run, requests]
    | cons e l ih =>
      intro s hp ha hr
      have : run s (List.replicate (e :: l).length (.acceptReg true))
          = run (step s (.acceptReg true)) (List.replicate l.length (.acceptReg true)) := rfl
      rw [this]
      have hst : step s (.acceptReg true) = { s with reg := l, answered := s.answered ++ requests s.me [e] } := by
        obtain ⟨me, acc, route, phase, sub, ended, reg, fxd, runs, ans, inner, arr⟩ := s
        simp only at hp ha hr
        subst hp ha hr
        simp only [step, and_self, if_true]
        by_cases hex : ∃ id, e = .postRegister id me true
        · obtain ⟨id, rfl⟩ := hex
          simp [handle, requests]
        · obtain ⟨q1, q2⟩ := requests_of_handle_same (s := ⟨me, true, route, .running, sub, ended, l, fxd, runs, ans, inner, arr⟩) (e := e) (ok := true) hex
          rw [q2]
          simp only at q1
          simp [q1]
      rw [hst, ih _ (by exact hp) (by exact ha) rfl]
      simp [requests_cons s.me e l]
  have e2 : ∀ (l : List Ev) (s : St), s.phase = .running → s.accept = true → s.sub = l →
      run s (List.replicate l.length (.acceptSub true))
        = { s with sub := [], answered := s.answered ++ requests s.me l } := by
    intro l
    induction l with
    | nil => intro s _ _ hr; obtain ⟨me, acc, route, phase, sub, ended, reg, fxd, runs, ans, inner, arr⟩ := s; simp only at hr; subst hr; simp [run, requests]
    | cons e l ih =>
      intro s hp ha hr
      have : run s (List.replicate (e :: l).length (.acceptSub true))
          = run (step s (.acceptSub true)) (List.replicate l.length (.acceptSub true)) := rfl
      rw [this]
      have hst : step s (.acceptSub true) = { s with sub := l, answered := s.answered ++ requests s.me [e] } := by
        obtain ⟨me, acc, route, phase, sub, ended, reg, fxd, runs, ans, inner, arr⟩ := s
        simp only at hp ha hr
        subst hp ha hr
        simp only [step, and_self, if_true]
        by_cases hex : ∃ id, e = .postRegister id me true
        · obtain ⟨id, rfl⟩ := hex
          simp [handle, requests]
        · obtain ⟨q1, q2⟩ := requests_of_handle_same (s := ⟨me, true, route, .running, l, ended, reg, fxd, runs, ans, inner, arr⟩) (e := e) (ok := true) hex
          rw [q2]
          simp only at q1
          simp [q1]
      rw [hst, ih _ (by exact hp) (by exact ha) rfl]
      simp [requests_cons s.me e l]
  intro t
  have : t = run (run s (List.replicate s.reg.length (.acceptReg true))) (List.replicate s.sub.length (.acceptSub true)) :=
    run_append _ _ _
  rw [this, e1 s.reg s hp ha rfl, e2 s.sub { s with reg := [], answered := s.answered ++ requests s.me s.reg } hp ha rfl]
  simp [hp]

example : (run (begin 7 true) [.start, .subEvent .channel, .kernel (.postRegister 3 7 true), .main,
    .subEvent (.postRegister 4 7 true), .kernel (.postRegister 5 8 true), .acceptSub true, .acceptReg true,
    .acceptReg true]).answered = [4, 3] := by decide

/-- A request that comes before the request of the group is sent goes to the inner kernel, also for an owner who accepts
registrations; unless it comes a second time it is never answered. -/
theorem C145_counterexample_early (me id : Nat) (as : List Act)
    (hnew : ∀ a ∈ as, ∀ t q, a ≠ .kernel (.postRegister id t q) ∧ a ≠ .subEvent (.postRegister id t q)) :
    let s := run (begin me true) (.kernel (.postRegister id me true) :: as)
    id ∉ s.answered ∧ id ∈ s.toInner := by
  intro s
  have h : Inv s := inv_run (.kernel (.postRegister id me true) :: as) (inv_begin me true)
  have key : ∀ (as : List Act) (t : St), (∀ a ∈ as, ∀ u q, a ≠ .kernel (.postRegister id u q) ∧ a ≠ .subEvent (.postRegister id u q)) →
      id ∉ t.arrived → id ∈ t.toInner → id ∉ (run t as).arrived ∧ id ∈ (run t as).toInner := by
    intro as
    induction as with
    | nil => intro t _ h1 h2; exact ⟨h1, h2⟩
    | cons a as ih =>
      intro t hn h1 h2
      refine ih (step t a) (fun b hb => hn b (List.mem_cons_of_mem _ hb)) ?_ ?_
      · have ha := hn a List.mem_cons_self
        cases a with
        | kernel e =>
          cases e with
          | postRegister j u q =>
            have hj : j ≠ id := by intro hj; exact (ha u q).1 (by rw [hj])
            simp only [step, kernelEvent]
            split
            · cases q
              · simpa [requests] using h1
              · by_cases hu : u = t.me
                · simp [requests, hu, h1, Ne.symm hj]
                · simpa [requests, hu] using h1
            · exact h1
          | _ => exact h1
        | start => simp only [step]; split <;> exact h1
        | subEvent e =>
          simp only [step]; split
          · cases e with
            | postRegister j u q =>
              have hj : j ≠ id := by intro hj; exact (ha u q).2 (by rw [hj])
              cases q
              · simpa [requests] using h1
              · by_cases hu : u = t.me
                · simp [requests, hu, h1, Ne.symm hj]
                · simpa [requests, hu] using h1
            | _ => simpa [requests] using h1
          · exact h1
        | subEnd => simp only [step]; split <;> exact h1
        | main => simp only [step, mainTurn]; split <;> (try split) <;> (try split) <;> exact h1
        | fxReturn ok => simp only [step]; split <;> (try split) <;> (try split) <;> exact h1
        | acceptReg ok =>
          simp only [step]; split
          · split
            · exact h1
            · rename_i e r _
              rcases handle_requests { t with reg := r } e ok with h | ⟨id, _, ⟨_, h⟩ | ⟨_, h⟩⟩ <;> rw [h] <;> exact h1
          · exact h1
        | acceptSub ok =>
          simp only [step]; split
          · split
            · split <;> exact h1
            · rename_i e r _
              rcases handle_requests { t with sub := r } e ok with h | ⟨id, _, ⟨_, h⟩ | ⟨_, h⟩⟩ <;> rw [h] <;> exact h1
          · exact h1
      · cases a with
        | kernel e =>
          simp only [step, kernelEvent]; split
          · split
            · exact h2
            · simp [h2]
          · exact h2
        | start => simp only [step]; split <;> exact h2
        | subEvent e => simp only [step]; split <;> exact h2
        | subEnd => simp only [step]; split <;> exact h2
        | main => simp only [step, mainTurn]; split <;> (try split) <;> (try split) <;> exact h2
        | fxReturn ok => simp only [step]; split <;> (try split) <;> (try split) <;> exact h2
        | acceptReg ok =>
          simp only [step]; split
          · split
            · exact h2
            · rename_i e r _
              rcases handle_requests { t with reg := r } e ok with h | ⟨id, _, ⟨_, h⟩ | ⟨_, h⟩⟩ <;> rw [h] <;> exact h2
          · exact h2
        | acceptSub ok =>
          simp only [step]; split
          · split
            · split <;> exact h2
            · rename_i e r _
              rcases handle_requests { t with sub := r } e ok with h | ⟨id, _, ⟨_, h⟩ | ⟨_, h⟩⟩ <;> rw [h] <;> exact h2
          · exact h2
  have hk := key as (step (begin me true) (.kernel (.postRegister id me true))) hnew
    (by simp [step, kernelEvent, begin]) (by simp [step, kernelEvent, begin])
  refine ⟨?_, hk.2⟩
  intro hm
  have h1 : 0 < s.answered.count id := List.count_pos_iff.2 hm
  have h2 : s.arrived.count id = 0 := List.count_eq_zero.2 hk.1
  have := h.only id
  change s.answered.count id + _ + _ ≤ s.arrived.count id at this
  omega

/-- A node that does not accept registrations takes a request out of its subscription and puts it into a queue which
nobody reads: it is neither answered nor handed to the inner kernel. -/
theorem C145_counterexample_swallowed (me id : Nat) :
    let s := run (begin me false) [.start, .subEvent (.postRegister id me true), .main]
    s.sub = [] ∧ s.toInner = [] ∧ s.reg = [.postRegister id me true] ∧
    ∀ as, (∀ a ∈ as, ∀ e, a ≠ .kernel e) → (run s as).answered = [] ∧ (run s as).toInner = [] ∧
      ∃ r, (run s as).reg = .postRegister id me true :: r := by
  intro s
  have e : s = { begin me false with phase := .waiting, reg := [.postRegister id me true], arrived := requests me [.postRegister id me true] } := by
    simp [s, run, step, begin, mainTurn, requests]
  refine ⟨by rw [e]; rfl, by rw [e]; rfl, by rw [e], ?_⟩
  have key : ∀ (as : List Act) (t : St), (∀ a ∈ as, ∀ e, a ≠ .kernel e) → t.accept = false → t.answered = [] → t.toInner = [] →
      (∃ r, t.reg = .postRegister id me true :: r) →
      (run t as).answered = [] ∧ (run t as).toInner = [] ∧ ∃ r, (run t as).reg = .postRegister id me true :: r := by
    intro as
    induction as with
    | nil => intro t _ _ h1 h2 h3; exact ⟨h1, h2, h3⟩
    | cons a as ih =>
      intro t hn ha h1 h2 h3
      obtain ⟨r, h3⟩ := h3
      have hn' : ∀ b ∈ as, ∀ e, b ≠ .kernel e := fun b hb => hn b (List.mem_cons_of_mem _ hb)
      have hst : (step t a).accept = false ∧ (step t a).answered = [] ∧ (step t a).toInner = [] ∧
          ∃ r, (step t a).reg = .postRegister id me true :: r := by
        cases a with
        | kernel e => exact (hn _ List.mem_cons_self e rfl).elim
        | start => simp only [step]; split <;> exact ⟨ha, h1, h2, r, h3⟩
        | subEvent e => simp only [step]; split <;> exact ⟨ha, h1, h2, r, h3⟩
        | subEnd => simp only [step]; split <;> exact ⟨ha, h1, h2, r, h3⟩
        | main =>
          simp only [step, mainTurn]; split
          · split
            · split <;> exact ⟨ha, h1, h2, r, h3⟩
            · exact ⟨ha, h1, h2, r, h3⟩
            · rename_i i u q r' _
              exact ⟨ha, h1, h2, r ++ [.postRegister i u q], by simp [h3]⟩
            · exact ⟨ha, h1, h2, r, h3⟩
            · exact ⟨ha, h1, h2, r, h3⟩
            · exact ⟨ha, h1, h2, r, h3⟩
          · exact ⟨ha, h1, h2, r, h3⟩
        | fxReturn ok => simp only [step]; split <;> (try split) <;> (try split) <;> exact ⟨ha, h1, h2, r, h3⟩
        | acceptReg ok => simp only [step, ha, Bool.false_eq_true, and_false, if_false]; exact ⟨trivial, h1, h2, r, h3⟩
        | acceptSub ok => simp only [step, ha, Bool.false_eq_true, and_false, if_false]; exact ⟨trivial, h1, h2, r, h3⟩
      exact ih (step t a) hn' hst.1 hst.2.1 hst.2.2.1 hst.2.2.2
  intro as hn
  exact key as s hn (by rw [e]; rfl) (by rw [e]; rfl) (by rw [e]; rfl) ⟨[], by rw [e]⟩

/-! ## C146 -/

/-- When a client that joins looks, in seconds after it began. -/
def looks : List Nat := [0, 1, 3, 7, 15]

/-- If no listing fails, a client that joins looks five times and finds the group exactly if it is there at one of these
times; the loop ends within 31 s, and a group that is found is found at the first of these times. Missing for the full
statement: a group that comes after the last look (`C146_counterexample_wait`). -/
theorem C146_join_partial (listing : Nat → Option Bool) (hok : ∀ t, listing t ≠ none) (t₀ : Nat) :
    let r := joinLoop listing 0 t₀ 5
    (r.2 = true ↔ ∃ d ∈ looks, listing (t₀ + d) = some true) ∧ r.1 ≤ t₀ + 31 ∧
    (r.2 = true → listing r.1 = some true ∧ ∀ d ∈ looks, t₀ + d < r.1 → listing (t₀ + d) = some false) := by
  have two : ∀ t, listing t = some true ∨ listing t = some false := by
    intro t
    cases h : listing t with
    | none => exact (hok t h).elim
    | some b => cases b <;> simp
  intro r
  have e0 : t₀ + 2 ^ 0 = t₀ + 1 := rfl
  have e1 : t₀ + 1 + 2 ^ 1 = t₀ + 3 := rfl
  have e2 : t₀ + 3 + 2 ^ 2 = t₀ + 7 := rfl
  have e3 : t₀ + 7 + 2 ^ 3 = t₀ + 15 := rfl
  have e4 : t₀ + 15 + 2 ^ 4 = t₀ + 31 := rfl
  have hr : r = joinLoop listing 0 t₀ 5 := rfl
  clear_value r
  rcases two t₀ with h0 | h0
  · have : r = (t₀, true) := by rw [hr]; simp [joinLoop, h0]
    subst this
    refine ⟨⟨fun _ => ⟨0, by simp [looks], h0⟩, fun _ => rfl⟩, by simp, fun _ => ⟨h0, fun d _ hd => ?_⟩⟩
    simp only at hd; omega
  rcases two (t₀ + 1) with h1 | h1
  · have : r = (t₀ + 1, true) := by rw [hr]; simp [joinLoop, h0, h1]
    subst this
    refine ⟨⟨fun _ => ⟨1, by simp [looks], h1⟩, fun _ => rfl⟩, by simp, fun _ => ⟨h1, fun d hm hd => ?_⟩⟩
    simp only [looks, List.mem_cons, List.not_mem_nil, or_false] at hm
    rcases hm with rfl | rfl | rfl | rfl | rfl <;> first | exact h0 | omega
  rcases two (t₀ + 3) with h2 | h2
  · have : r = (t₀ + 3, true) := by rw [hr]; simp [joinLoop, h0, h1, h2]
    subst this
    refine ⟨⟨fun _ => ⟨3, by simp [looks], h2⟩, fun _ => rfl⟩, by simp, fun _ => ⟨h2, fun d hm hd => ?_⟩⟩
    simp only [looks, List.mem_cons, List.not_mem_nil, or_false] at hm
    rcases hm with rfl | rfl | rfl | rfl | rfl <;> first | exact h0 | exact h1 | omega
  rcases two (t₀ + 7) with h3 | h3
  · have : r = (t₀ + 7, true) := by rw [hr]; simp [joinLoop, h0, h1, h2, h3]
    subst this
    refine ⟨⟨fun _ => ⟨7, by simp [looks], h3⟩, fun _ => rfl⟩, by simp, fun _ => ⟨h3, fun d hm hd => ?_⟩⟩
    simp only [looks, List.mem_cons, List.not_mem_nil, or_false] at hm
    rcases hm with rfl | rfl | rfl | rfl | rfl <;> first | exact h0 | exact h1 | exact h2 | omega
  rcases two (t₀ + 15) with h4 | h4
  · have : r = (t₀ + 15, true) := by rw [hr]; simp [joinLoop, h0, h1, h2, h3, h4]
    subst this
    refine ⟨⟨fun _ => ⟨15, by simp [looks], h4⟩, fun _ => rfl⟩, by simp, fun _ => ⟨h4, fun d hm hd => ?_⟩⟩
    simp only [looks, List.mem_cons, List.not_mem_nil, or_false] at hm
    rcases hm with rfl | rfl | rfl | rfl | rfl <;> first | exact h0 | exact h1 | exact h2 | exact h3 | omega
  · have : r = (t₀ + 31, false) := by rw [hr]; simp [joinLoop, h0, h1, h2, h3, h4]
    subst this
    refine ⟨⟨(fun h => by cases h), ?_⟩, by simp, (fun h => by cases h)⟩
    rintro ⟨d, hm, hd⟩
    simp only [looks, List.mem_cons, List.not_mem_nil, or_false] at hm
    rcases hm with rfl | rfl | rfl | rfl | rfl
    · rw [Nat.add_zero, h0] at hd; cases hd
    · rw [h1] at hd; cases hd
    · rw [h2] at hd; cases hd
    · rw [h3] at hd; cases hd
    · rw [h4] at hd; cases hd

example : joinLoop (fun t => some (decide (105 ≤ t))) 0 100 5 = (107, true) := by decide

/-- A group that exists from the sixteenth second on: the client waits another 15 s, does not look again, and reports
that there is no group. -/
theorem C146_counterexample_wait (t₀ : Nat) :
    joinLoop (fun t => some (decide (t₀ + 16 ≤ t))) 0 t₀ 5 = (t₀ + 31, false) := by
  have h0 : decide (t₀ + 16 ≤ t₀) = false := by simp
  simp [joinLoop, Nat.add_assoc, h0]

end Verif.Broadcast

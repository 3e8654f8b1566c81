import Verif.ChanEnd.Lemmas

/-
Properties C214 – C218: the receiving halves of the channels of a connection.
-/

namespace Verif.ChanEnd

/-! ### C214: what comes out of a channel was handed to it, in order -/

/-- Whatever happens, what the program got from the ordered channel so far is the beginning of what
was handed to it: nothing is skipped, changed, doubled or out of order. -/
theorem C214_ordered (k : Kind) (as : List Act) :
    gotOrd (run (init k) as).2 <+: handedOrd as := by
  have h := ord_prefix (init k) as
  have e : (init k).ord.queue = [] := rfl
  rw [e, List.nil_append] at h
  split at h
  · exact h
  · exact h.trans List.nil_prefix

/-- What it got from the unordered one was handed to it, in that order, each at most once. -/
theorem C214_unordered (k : Kind) (as : List Act) :
    (gotUdp (run (init k) as).2).Sublist (handedUdp as) := by
  have h := udp_sublist (init k) as
  have e : (init k).udp.queue = [] := rfl
  rwa [e, List.nil_append] at h

example : (run (init .peer) [.ordIn [1], .openUdp, .udpIn [7], .pollOrd, .recv 1, .pollOrd]).2
    = [.ord (.item [1]), .recvOk [7], .ord .pending] := by decide

/-! ### C215: what was handed to the ordered channel is read before it ends -/

/-- As long as nothing ends the channel, the program never sees its end, and as many polls as there
are unread messages give exactly all that was handed to it. What is missing: the acts that end the
channel (`ends`) are excluded, see `C215_counterexample`. -/
theorem C215_all_read_partial (k : Kind) (as : List Act) (h : ∀ a ∈ as, a.ends = false) :
    .done ∉ seenOrd (run (init k) as).2 ∧
    ∃ n, gotOrd (run (init k) (as ++ List.replicate n .pollOrd)).2 = handedOrd as := by
  obtain ⟨h1, h2, h3, h4⟩ := ord_live (init k) as ⟨rfl, rfl, rfl⟩ rfl h
  refine ⟨h4, (run (init k) as).1.ord.queue.length, ?_⟩
  rw [run_append]
  simp only [gotOrd_append]
  rw [poll_all _ h1 h2, h3]
  rfl

/-- A message that waits is given by the next poll as long as the flag is up, be the queue closed or
not, and be there other acts before. -/
theorem C215_next_partial (k : Kind) (as : List Act) (m : Msg)
    (ha : (run (init k) as).1.alive = true) (hh : (run (init k) as).1.ord.held = true)
    (hq : (run (init k) as).1.ord.queue.head? = some m) :
    seenOrd (run (init k) (as ++ [.pollOrd])).2
      = seenOrd (run (init k) as).2 ++ [.item m] := by
  rw [run_append]
  generalize run (init k) as = r at *
  obtain ⟨s, os⟩ := r
  simp only at *
  cases hs : s.ord.queue with
  | nil => simp [hs] at hq
  | cons x q =>
    have : x = m := by simpa [hs] using hq
    subst this
    simp [run, step, hh, ha, Half.poll, Half.next, hs, seenOrd]

/-- The property does not hold: a message that was handed to the channel before the connection was
removed is never read, however often the program polls. The flag is looked at before the queue. -/
theorem C215_counterexample : ∃ as : List Act,
    (∀ a ∈ as, a ≠ .dropOrd) ∧ handedOrd as = [[104, 105]] ∧
    ∀ bs : List Act, gotOrd (run (init .peer) (as ++ bs)).2 = [] := by
  refine ⟨[.ordIn [104, 105], .remove], by decide, by decide, fun bs => ?_⟩
  rw [run_append]
  simp only [gotOrd_append]
  have h0 : gotOrd (run (init .peer) [.ordIn [104, 105], .remove]).2 = [] := by decide
  rw [h0, List.nil_append]
  have h1 : (run (init .peer) [.ordIn [104, 105], .remove]).1.ordOver := Or.inl (by decide)
  have h2 := ordOver_run _ bs h1
  generalize (run _ bs).2 = os at h2
  induction os with
  | nil => rfl
  | cons o os ih =>
    cases o with
    | ord p =>
      have := h2 p (by simp [seenOrd])
      subst this
      simp only [gotOrd, List.filterMap_cons]
      exact ih (fun q hq => h2 q (by simp only [seenOrd, List.filterMap_cons]; exact List.mem_cons_of_mem _ hq))
    | _ =>
      simp only [gotOrd, List.filterMap_cons]
      exact ih (fun q hq => h2 q (by simpa only [seenOrd, List.filterMap_cons] using hq))

example : (∀ a ∈ [Act.ordIn [1], .ordIn [2], .openUdp, .dropUdp, .pollOrd], a.ends = false)
    ∧ gotOrd (run (init .peer)
        ([Act.ordIn [1], .ordIn [2], .openUdp, .dropUdp, .pollOrd] ++ [.pollOrd])).2 = [[1], [2]] := by
  decide

example : (run (init .server) [.ordIn [1], .ordIn [2], .pollOrd]).1.alive = true
    ∧ (run (init .server) [.ordIn [1], .ordIn [2], .pollOrd]).1.ord.held = true
    ∧ (run (init .server) [.ordIn [1], .ordIn [2], .pollOrd]).1.ord.queue.head? = some [2] := by decide

/-! ### C216: a channel that has ended stays ended -/

/-- After the program saw the end of the ordered channel it sees nothing else of it. -/
theorem C216_ordered (k : Kind) (as : List Act) (xs ys : List Polled)
    (h : seenOrd (run (init k) as).2 = xs ++ .done :: ys) : ∀ p ∈ ys, p = .done := by
  generalize init k = s at h
  induction as generalizing s xs with
  | nil => simp [run, seenOrd] at h
  | cons a as ih =>
    simp only [run, seenOrd_append] at h
    by_cases hd : .done ∈ seenOrd (step s a).2
    · obtain ⟨ho, he⟩ := (ordOver_step s a).2 hd
      rw [he] at h
      intro p hp
      cases xs with
      | nil =>
        simp only [List.nil_append, List.cons_append, List.cons.injEq, true_and] at h
        exact ordOver_run _ as ho p (h ▸ hp)
      | cons x xs =>
        simp only [List.cons_append, List.nil_append, List.cons.injEq] at h
        exact ordOver_run _ as ho p (h.2 ▸ by simp [hp])
    · rcases List.append_eq_append_iff.mp h with ⟨zs, hx, hz⟩ | ⟨zs, hx, hz⟩
      · exact ih _ _ hz
      · cases zs with
        | nil =>
          simp only [List.nil_append] at hz
          exact ih [] _ (by simpa using hz.symm)
        | cons z zs =>
          simp only [List.cons_append, List.cons.injEq] at hz
          exact absurd (by rw [hx, ← hz.1]; simp) hd

/-- The same of the unordered one. -/
theorem C216_unordered (k : Kind) (as : List Act) (xs ys : List Polled)
    (h : seenUdp (run (init k) as).2 = xs ++ .done :: ys) : ∀ p ∈ ys, p = .done := by
  have hw : (init k).wf := by simp [State.wf, init]
  generalize init k = s at h hw
  induction as generalizing s xs with
  | nil => simp [run, seenUdp] at h
  | cons a as ih =>
    have hw' := wf_step s a hw
    simp only [run, seenUdp_append] at h
    by_cases hd : .done ∈ seenUdp (step s a).2
    · obtain ⟨ho, he⟩ := (udpOver_step s a hw).2 hd
      rw [he] at h
      intro p hp
      cases xs with
      | nil =>
        simp only [List.nil_append, List.cons_append, List.cons.injEq, true_and] at h
        exact udpOver_run _ as hw' ho p (h ▸ hp)
      | cons x xs =>
        simp only [List.cons_append, List.nil_append, List.cons.injEq] at h
        exact udpOver_run _ as hw' ho p (h.2 ▸ by simp [hp])
    · rcases List.append_eq_append_iff.mp h with ⟨zs, hx, hz⟩ | ⟨zs, hx, hz⟩
      · exact ih _ _ hz hw'
      · cases zs with
        | nil =>
          simp only [List.nil_append] at hz
          exact ih [] _ (by simpa using hz.symm) hw'
        | cons z zs =>
          simp only [List.cons_append, List.cons.injEq] at hz
          exact absurd (by rw [hx, ← hz.1]; simp) hd

/-- When the connection is gone, both have ended: every poll of either gives the end. -/
theorem C216_removed (k : Kind) (as bs : List Act) (h : .remove ∈ as) :
    (∀ p ∈ seenOrd (run (run (init k) as).1 bs).2, p = .done) ∧
    (∀ p ∈ seenUdp (run (run (init k) as).1 bs).2, p = .done) := by
  have hgone : ∀ (s : State) (a : Act), (s.conn = false → s.alive = false) →
      ((step s a).1.conn = false → (step s a).1.alive = false) := by
    intro s a hs
    cases a <;> simp only [step] <;> (repeat' split) <;> simp_all
  have hal : ∀ (as : List Act) (s : State), (s.conn = false → s.alive = false) → .remove ∈ as →
      (run s as).1.alive = false := by
    intro as
    induction as with
    | nil => intro s _ hm; simp at hm
    | cons a as ih =>
      intro s hs hm
      by_cases ha : a = .remove
      · subst ha
        refine dead_run _ as ?_
        simp only [step]
        cases hc : s.conn <;> simp_all
      · refine ih _ (hgone s a hs) ?_
        rcases List.mem_cons.mp hm with hm | hm
        · exact absurd hm.symm ha
        · exact hm
  have h0 := hal as (init k) (by simp [init]) h
  exact ⟨ordOver_run _ bs (Or.inl h0), dead_udp _ bs h0⟩

example : seenOrd (run (init .peer) [.ordIn [1], .pollOrd, .pollOrd, .remove, .pollOrd, .ordIn [2],
    .pollOrd]).2 = [.item [1], .pending] ++ .done :: [.done] := by decide

example : seenUdp (run (init .peer) [.openUdp, .udpIn [1], .closeUdp, .pollUdp, .pollUdp,
    .udpIn [2], .pollUdp]).2 = [.item [1]] ++ .done :: [.done] := by decide

/-! ### C217: dropping one channel -/

/-- What the program sees of the ordered channel does not depend on the unordered one: leaving out
all acts on it, its end and its drop among them, changes nothing. -/
theorem C217_apart (k : Kind) (as : List Act) :
    seenOrd (run (init k) as).2 = seenOrd (run (init k) (as.filter fun a => !a.udpOnly)).2 := by
  have key : ∀ (as : List Act) (s t : State), s.kind = t.kind → s.alive = t.alive →
      s.conn = t.conn → s.ord = t.ord →
      seenOrd (run s as).2 = seenOrd (run t (as.filter fun a => !a.udpOnly)).2 := by
    intro as
    induction as with
    | nil => intros; rfl
    | cons a as ih =>
      intro s t h1 h2 h3 h4
      cases hu : a.udpOnly with
      | true =>
        have hk : (step s a).1.kind = s.kind ∧ (step s a).1.alive = s.alive ∧
            (step s a).1.conn = s.conn ∧ (step s a).1.ord = s.ord ∧ seenOrd (step s a).2 = [] := by
          cases a with
          | recv n =>
            simp only [step]
            split
            · refine ⟨rfl, rfl, rfl, rfl, ?_⟩
              cases s.udp.next.1 <;> simp only [recvOut] <;> (try split) <;> simp [seenOrd]
            · simp [seenOrd]
          | ordIn m => simp [Act.udpOnly] at hu
          | deactivate => simp [Act.udpOnly] at hu
          | remove => simp [Act.udpOnly] at hu
          | pollOrd => simp [Act.udpOnly] at hu
          | dropOrd => simp [Act.udpOnly] at hu
          | _ => simp only [step] <;> (repeat' split) <;> simp_all [seenOrd]
        obtain ⟨k1, k2, k3, k4, k5⟩ := hk
        simp only [run, seenOrd_append, k5, List.nil_append]
        rw [List.filter_cons_of_neg (by simp [hu])]
        exact ih _ _ (k1.trans h1) (k2.trans h2) (k3.trans h3) (k4.trans h4)
      | false =>
        rw [List.filter_cons_of_pos (by simp [hu])]
        have hk : (step s a).1.kind = (step t a).1.kind ∧
            (step s a).1.alive = (step t a).1.alive ∧
            (step s a).1.conn = (step t a).1.conn ∧ (step s a).1.ord = (step t a).1.ord ∧
            (step s a).2 = (step t a).2 := by
          cases a with
          | ordIn m => simp only [step, h3]; split <;> simp_all
          | deactivate => simp only [step, h3]; split <;> simp_all
          | remove => simp only [step, h3]; split <;> simp_all
          | pollOrd => simp only [step, h4, h2]; split <;> simp_all
          | dropOrd => simp only [step, h4, h1]; (repeat' split) <;> simp_all
          | _ => simp [Act.udpOnly] at hu
        obtain ⟨k1, k2, k3, k4, k5⟩ := hk
        simp only [run, seenOrd_append, k5]
        rw [ih _ _ k1 k2 k3 k4]
  exact key as _ _ rfl rfl rfl rfl

/-- Between peers, dropping the ordered half ends the unordered channel as well; and it asks the node
to disconnect. -/
theorem C217_peer (as bs : List Act) (hh : (run (init .peer) as).1.ord.held = true) :
    (∀ p ∈ seenUdp (run (run (init .peer) (as ++ [.dropOrd])).1 bs).2, p = .done) ∧
    .disconnect ∈ (run (init .peer) (as ++ [.dropOrd])).1.cmds := by
  have hkind : ∀ (as : List Act) (s : State), s.kind = .peer → (run s as).1.kind = .peer := by
    intro as
    induction as with
    | nil => intro s hs; exact hs
    | cons a as ih =>
      intro s hs
      refine ih _ ?_
      cases a <;> simp only [step] <;> (repeat' split) <;> simp_all
  have hk := hkind as (init .peer) rfl
  have hd : (run (init .peer) (as ++ [.dropOrd])).1.alive = false ∧
      .disconnect ∈ (run (init .peer) (as ++ [.dropOrd])).1.cmds := by
    rw [run_append]
    simp [run, step, hh, hk]
  exact ⟨dead_udp _ bs hd.1, hd.2⟩

/-- What a half asks of the node when dropped: between peers one command for each half, at most one
of each kind and only after the drop; between a client and its server none. -/
theorem C217_commands (k : Kind) (as : List Act) :
    (run (init k) as).1.cmds.count .disconnect
      = (if k = .peer ∧ .dropOrd ∈ as then 1 else 0) ∧
    (run (init k) as).1.cmds.count .disconnectUdp ≤ 1 ∧
    ((run (init k) as).1.cmds.count .disconnectUdp = 1 → k = .peer ∧ .dropUdp ∈ as) := by
  have key : ∀ (as : List Act) (s : State),
      (s.ord.held = true → s.cmds.count .disconnect = 0) →
      (s.udp.held = true → s.udpMade = true) →
      (s.udp.held = true ∨ s.udpMade = false → s.cmds.count .disconnectUdp = 0) →
      s.cmds.count .disconnectUdp ≤ 1 →
      (run s as).1.cmds.count .disconnect = s.cmds.count .disconnect +
        (if s.kind = .peer ∧ s.ord.held = true ∧ .dropOrd ∈ as then 1 else 0) ∧
      (run s as).1.cmds.count .disconnectUdp ≤ 1 ∧
      ((run s as).1.cmds.count .disconnectUdp = 1 →
        s.cmds.count .disconnectUdp = 1 ∨ (s.kind = .peer ∧ .dropUdp ∈ as)) := by
    intro as
    induction as with
    | nil => intro s h1 h2 h3 h4; refine ⟨by simp [run], h4, fun h => Or.inl h⟩
    | cons a as ih =>
      intro s h1 h2 h3 h4
      simp only [run]
      have hs : ((step s a).1.ord.held = true → (step s a).1.cmds.count .disconnect = 0) ∧
          ((step s a).1.udp.held = true → (step s a).1.udpMade = true) ∧
          ((step s a).1.udp.held = true ∨ (step s a).1.udpMade = false →
            (step s a).1.cmds.count .disconnectUdp = 0) ∧
          (step s a).1.cmds.count .disconnectUdp ≤ 1 ∧
          (step s a).1.kind = s.kind ∧
          ((step s a).1.ord.held = true ↔ s.ord.held = true ∧ a ≠ .dropOrd) ∧
          (step s a).1.cmds.count .disconnect = s.cmds.count .disconnect +
            (if s.kind = .peer ∧ s.ord.held = true ∧ a = .dropOrd then 1 else 0) ∧
          ((step s a).1.cmds.count .disconnectUdp = 1 →
            s.cmds.count .disconnectUdp = 1 ∨ (s.kind = .peer ∧ a = .dropUdp)) := by
        cases a with
        | dropOrd =>
          simp only [step, Half.drop]
          by_cases hh : s.ord.held = true <;> cases hk : s.kind <;>
            simp_all [List.count_append]
        | dropUdp =>
          simp only [step, Half.drop]
          by_cases hh : s.udp.held = true <;> cases hk : s.kind <;>
            simp_all [List.count_append]
        | ordIn m => simp only [step, Half.push]; (repeat' split) <;> simp_all
        | udpIn m => simp only [step, Half.push]; (repeat' split) <;> simp_all
        | openUdp => simp only [step]; split <;> simp_all
        | closeUdp => simp only [step]; split <;> simp_all
        | deactivate => simp only [step]; split <;> simp_all
        | remove => simp only [step]; split <;> simp_all
        | pollOrd =>
          simp only [step, Half.poll, Half.next]
          by_cases hh : s.ord.held = true <;> by_cases hal : s.alive = true <;>
            cases hq : s.ord.queue <;> by_cases hd : s.ord.closed = true <;> simp_all
        | pollUdp =>
          simp only [step, Half.poll, Half.next]
          by_cases hh : s.udp.held = true <;> by_cases hal : s.alive = true <;>
            cases hq : s.udp.queue <;> by_cases hd : s.udp.closed = true <;> simp_all
        | recv n =>
          simp only [step, Half.next]
          by_cases hh : s.udp.held = true <;> cases hq : s.udp.queue <;>
            by_cases hd : s.udp.closed = true <;> simp_all
      obtain ⟨g1, g2, g3, g4, g5, g6, g7, g8⟩ := hs
      obtain ⟨i1, i2, i3⟩ := ih _ g1 g2 g3 g4
      refine ⟨?_, i2, ?_⟩
      · rw [i1, g7, g5]
        by_cases hk : s.kind = .peer <;> by_cases hh : s.ord.held = true <;>
          by_cases ha : a = .dropOrd <;> by_cases hm : .dropOrd ∈ as <;> simp_all
        all_goals (have : ¬ Act.dropOrd = a := fun h => ha h.symm; simp_all)
      · intro h
        rcases i3 h with h | ⟨h, hm⟩
        · rcases g8 h with h' | ⟨h', rfl⟩
          · exact Or.inl h'
          · exact Or.inr ⟨h', by simp⟩
        · exact Or.inr ⟨g5 ▸ h, by simp [hm]⟩
  obtain ⟨i1, i2, i3⟩ := key as (init k) (by simp [init]) (by simp [init]) (by simp [init])
    (by simp [init])
  refine ⟨?_, i2, fun h => ?_⟩
  · rw [i1]; simp [init]
  · rcases i3 h with h | h
    · simp [init] at h
    · exact h

example : (run (init .peer) [.openUdp, .udpIn [1], .dropOrd, .pollUdp, .dropUdp]).1.cmds
    = [.disconnect, .disconnectUdp]
    ∧ (run (init .peer) [.openUdp, .udpIn [1], .dropOrd, .pollUdp, .dropUdp]).2 = [.udp .done] := by
  decide

example : (run (init .server) [.openUdp, .udpIn [1], .dropOrd, .pollUdp, .dropUdp]).1.cmds = []
    ∧ (run (init .server) [.openUdp, .udpIn [1], .dropOrd, .pollUdp, .dropUdp]).2
      = [.udp (.item [1])] := by
  decide

/-! ### C218: the WebRTC adaptor gives a packet that fits -/

/-- `recv` with a buffer of exactly the length of the packet that waits gives that packet. What is
missing: any longer buffer, see `C218_counterexample`. -/
theorem C218_exact_partial (k : Kind) (as : List Act) (m : Msg)
    (hh : (run (init k) as).1.udp.held = true)
    (hq : (run (init k) as).1.udp.queue.head? = some m) :
    (run (run (init k) as).1 [.recv m.length]).2 = [.recvOk m] := by
  generalize (run (init k) as).1 = s at *
  cases hs : s.udp.queue with
  | nil => simp [hs] at hq
  | cons x q =>
    have : x = m := by simpa [hs] using hq
    subst this
    simp [run, step, hh, Half.next, hs, recvOut]

/-- With any other length, shorter or longer, it panics, and the packet is gone. -/
theorem C218_panics (k : Kind) (as : List Act) (m : Msg) (n : Nat)
    (hh : (run (init k) as).1.udp.held = true)
    (hq : (run (init k) as).1.udp.queue.head? = some m) (hn : n ≠ m.length) :
    (run (run (init k) as).1 [.recv n]).2 = [.recvPanic] ∧
    m :: (run (run (init k) as).1 [.recv n]).1.udp.queue = (run (init k) as).1.udp.queue := by
  generalize (run (init k) as).1 = s at *
  cases hs : s.udp.queue with
  | nil => simp [hs] at hq
  | cons x q =>
    have : x = m := by simpa [hs] using hq
    subst this
    simp [run, step, hh, Half.next, hs, recvOut, hn]

/-- The property does not hold: a buffer of 1500 bytes, a packet of 3, and a panic. -/
theorem C218_counterexample : ∃ (as : List Act) (m : Msg) (n : Nat),
    (run (init .peer) as).1.udp.queue = [m] ∧ m.length ≤ n ∧
    (run (run (init .peer) as).1 [.recv n]).2 = [.recvPanic] :=
  ⟨[.openUdp, .udpIn [1, 2, 3]], [1, 2, 3], 1500, by decide, by decide, by decide⟩

/-- It reports the end only when nothing waits and the channel is closed. -/
theorem C218_end (k : Kind) (as : List Act) (n : Nat)
    (h : (run (run (init k) as).1 [.recv n]).2 = [.recvErr]) :
    (run (init k) as).1.udp.queue = [] ∧ (run (init k) as).1.udp.closed = true := by
  generalize (run (init k) as).1 = s at *
  simp only [run, step, Half.next, recvOut, List.append_nil] at h
  by_cases hh : s.udp.held = true <;> cases hs : s.udp.queue <;>
    by_cases hd : s.udp.closed = true <;> simp_all
  all_goals (rename_i m q; by_cases hl : n = m.length <;> simp_all)

example : (run (init .peer) [.openUdp, .udpIn [1, 2], .remove]).1.udp.held = true
    ∧ (run (init .peer) [.openUdp, .udpIn [1, 2], .remove]).1.udp.queue.head? = some [1, 2]
    ∧ (run (run (init .peer) [.openUdp, .udpIn [1, 2], .remove, .recv 2]).1 [.recv 2]).2
      = [.recvErr] := by decide

end Verif.ChanEnd

import Verif.Service.Lemmas

/-
Properties C219 – C221: the internal service.
-/

namespace Verif.Service

/-! ### C219: a service and its client talk as over a socket -/

/-- What the service of a client has read is the beginning of the bytes that this client sent, however
the reads cut it up and whatever the other clients and the node do. -/
theorem C219_reads (as : List Act) (i : Nat) :
    readBy i (Node.new.run as).2 <+: arrived i as := by
  have h := read_prefix Node.new as i
  have hl : Node.new.live i := ⟨rfl, rfl⟩
  rw [if_pos hl] at h
  exact h

/-- What goes to the client is the beginning of what its service wrote, one packet for each write. -/
theorem C219_writes (as : List Act) (i : Nat) :
    sentTo i (Node.new.run as).2 <+: written i as := by
  have h := sent_prefix Node.new as i
  have hl : Node.new.live i := ⟨rfl, rfl⟩
  rw [if_pos hl] at h
  exact h

example : (Node.new.run [.at 4 (.arrive [1, 2, 3]), .at 4 (.arrive []), .at 4 (.arrive [4]),
    .at 4 .forward, .at 4 .forward, .at 4 (.read 2), .at 4 .forward, .at 4 (.read 9),
    .at 4 (.read 9), .at 4 (.read 9), .at 4 (.write [8, 8]), .at 4 .send]).2
    = [(4, .got [1, 2]), (4, .got [3]), (4, .got [4]), (4, .wait), (4, .sent [8, 8])] := by decide

/-! ### C220: what is on its way arrives although the service ends -/

/-- As long as no service of the node has ended, nothing is lost: all the service wrote goes to the
client and all the client sent can be read. What is missing: the end, see the counterexamples. -/
theorem C220_all_partial (as : List Act) (i : Nat) (h : ∀ a ∈ as, a.stops = false) :
    (∃ n, sentTo i (Node.new.run (as ++ List.replicate n (.at i .send))).2 = written i as) ∧
    (∃ n k, readBy i (Node.new.run (as ++ (List.replicate n (.at i .forward)
      ++ List.replicate k (.at i (.read 1))))).2 = arrived i as) := by
  have h0 : Node.new.fresh := ⟨rfl, rfl, fun _ => rfl⟩
  have hf := fresh_run Node.new as h0 h
  obtain ⟨h1, h2⟩ := fresh_all Node.new as i h0 h
  have hl : (Node.new.run as).1.live i := ⟨hf.1, hf.2.2 i⟩
  have e1 : (Node.new.svc i).inside = [] := rfl
  have e2 : (Node.new.svc i).fromSvc = [] := rfl
  rw [e1, List.nil_append] at h1
  rw [e2, List.nil_append] at h2
  refine ⟨⟨((Node.new.run as).1.svc i).fromSvc.length, ?_⟩, ?_⟩
  · rw [run_append]
    simp only [sentTo_append]
    rw [send_all _ i hl, h2]
  · obtain ⟨f1, f2, f3, f4, f5⟩ := forward_all _ i hl
    have hr := read_all _ i f2
    refine ⟨((Node.new.run as).1.svc i).inbox.length, ?_⟩
    generalize hu : (Node.new.run as).1.run (List.replicate
      ((Node.new.run as).1.svc i).inbox.length (.at i .forward)) = u at *
    refine ⟨((u.1.svc i).chunk ++ (u.1.svc i).toSvc.flatten).length, ?_⟩
    rw [run_append, run_append, hu]
    simp only [readBy_append]
    rw [f1, hr, f4, f5, ← h1]
    simp [readBy, Svc.inside]

/-- The property does not hold of what is written: a service that writes its answer and returns has
written for nothing. -/
theorem C220_counterexample_answer : ∃ (as : List Act) (i : Nat),
    written i as = [[79, 75]] ∧ ∀ bs, sentTo i (Node.new.run (as ++ bs)).2 = [] := by
  refine ⟨[.at 0 (.write [79, 75]), .at 0 .stop], 0, by decide, fun bs => ?_⟩
  rw [run_append]
  simp only [sentTo_append]
  have h0 : sentTo 0 (Node.new.run [.at 0 (.write [79, 75]), .at 0 .stop]).2 = [] := by decide
  rw [h0, List.nil_append]
  have key : ∀ (bs : List Act) (s : Node), (s.svc 0).over = true → sentTo 0 (s.run bs).2 = [] := by
    intro bs
    induction bs with
    | nil => intro s _; rfl
    | cons b bs ih =>
      intro s hs
      simp only [Node.run, sentTo_append]
      have h1 : ((s.step b).1.svc 0).over = true ∧ sentTo 0 (s.step b).2 = [] := by
        cases b with
        | node => simp only [Node.step]; split <;> simp [hs, sentTo]
        | «at» j e =>
          simp only [Node.step]
          by_cases hj : j = 0
          · subst hj; simp [hs, sentTo]
          · split
            · refine ⟨?_, (other_outs 0 j hj _).2.1⟩
              have : ¬ (0 : Nat) = j := fun h => hj h.symm
              simp [put, this, hs]
            · exact ⟨hs, rfl⟩
      rw [h1.2, ih _ h1.1]; rfl
  exact key bs _ (by decide)

/-- Nor of what the client sent before it left. -/
theorem C220_counterexample_request : ∃ (as : List Act) (i : Nat),
    arrived i as = [71, 69, 84] ∧ ∀ bs, readBy i (Node.new.run (as ++ bs)).2 = [] := by
  refine ⟨[.at 0 (.arrive [71, 69, 84]), .at 0 .forward, .at 0 .stop, .node], 0, by decide,
    fun bs => ?_⟩
  rw [run_append]
  simp only [readBy_append]
  have h0 : readBy 0 (Node.new.run
    [.at 0 (.arrive [71, 69, 84]), .at 0 .forward, .at 0 .stop, .node]).2 = [] := by decide
  rw [h0, List.nil_append, down_run _ bs (by decide)]
  rfl

example : ∀ a ∈ [Act.at 0 (.write [1]), .node, .at 1 (.arrive [2])], a.stops = false := by decide

/-! ### C221: the clients of a server do not concern each other -/

/-- As long as no service has ended, what a client and its service see is what they would see were
they alone. What is missing: the end of a service, see `C221_counterexample`. -/
theorem C221_apart_partial (as : List Act) (i : Nat) (h : ∀ a ∈ as, a.stops = false) :
    seenBy i (Node.new.run as).2 = seenBy i (Node.new.run (as.filter (Act.of i))).2 := by
  have key : ∀ (as : List Act) (s t : Node), s.fresh → t.fresh → s.svc i = t.svc i →
      (∀ a ∈ as, a.stops = false) →
      seenBy i (s.run as).2 = seenBy i (t.run (as.filter (Act.of i))).2 := by
    intro as
    induction as with
    | nil => intros; rfl
    | cons a as ih =>
      intro s t hs ht he ha
      have hs' := fresh_step s a hs (ha a (by simp))
      have hrest : ∀ b ∈ as, b.stops = false := fun b hb => ha b (by simp [hb])
      cases ho : Act.of i a with
      | true =>
        rw [List.filter_cons_of_pos ho]
        have ht' := fresh_step t a ht (ha a (by simp))
        cases a with
        | node => simp [Act.of] at ho
        | «at» j e =>
          have hj : j = i := by simpa [Act.of] using ho
          subst hj
          have c1 : s.up = true ∧ (s.svc j).over = false := ⟨hs.1, hs.2.2 j⟩
          have c2 : t.up = true ∧ (t.svc j).over = false := ⟨ht.1, ht.2.2 j⟩
          have e1 : (s.step (.at j e)).2 = (t.step (.at j e)).2 := by
            simp only [Node.step]; rw [if_pos c1, if_pos c2, he]
          have e2 : (s.step (.at j e)).1.svc j = (t.step (.at j e)).1.svc j := by
            simp only [Node.step]; rw [if_pos c1, if_pos c2, he]; simp [put]
          simp only [Node.run, seenBy_append, e1]
          rw [ih _ _ hs' ht' e2 hrest]
      | false =>
        rw [List.filter_cons_of_neg (by simp [ho])]
        have e1 : seenBy i (s.step a).2 = [] ∧ (s.step a).1.svc i = s.svc i := by
          cases a with
          | node => simp only [Node.step]; split <;> simp [seenBy]
          | «at» j e =>
            have hj : j ≠ i := by simpa [Act.of] using ho
            have hij : ¬ i = j := fun h => hj h.symm
            simp only [Node.step]
            split
            · exact ⟨(other_outs i j hj _).2.2, by simp [put, hij]⟩
            · exact ⟨rfl, rfl⟩
        simp only [Node.run, seenBy_append, e1.1, List.nil_append]
        exact ih _ _ hs' ht (e1.2.trans he) hrest
  have h0 : Node.new.fresh := ⟨rfl, rfl, fun _ => rfl⟩
  exact key as _ _ h0 h0 rfl h

/-- The property does not hold: a client that leaves takes the whole server with it. The service of
another client never sees a byte again, and nothing it wrote is sent. -/
theorem C221_counterexample : ∃ as : List Act,
    (∀ a ∈ as, a.of 1 = true → a.stops = false) ∧
    arrived 1 as = [7] ∧ written 1 as = [[8]] ∧
    ∀ bs, seenBy 1 (Node.new.run (as ++ bs)).2 = [] := by
  refine ⟨[.at 1 (.arrive [7]), .at 1 (.write [8]), .at 0 .stop, .node], by decide, by decide,
    by decide, fun bs => ?_⟩
  rw [run_append]
  simp only [seenBy_append]
  have h0 : seenBy 1 (Node.new.run
    [.at 1 (.arrive [7]), .at 1 (.write [8]), .at 0 .stop, .node]).2 = [] := by decide
  rw [h0, List.nil_append, down_run _ bs (by decide)]
  rfl

/-- Until the node takes the request to shut down, and if none is on its way, no client notices the
others: the node goes down only after the end of some service. -/
theorem C221_down_after_end (as : List Act) (h : (Node.new.run as).1.up = false) :
    ∃ i, .at i .stop ∈ as := by
  refine Classical.byContradiction fun hn => ?_
  have ha : ∀ a ∈ as, a.stops = false := by
    intro a hm
    cases a with
    | node => rfl
    | «at» j e =>
      cases e with
      | stop => exact absurd ⟨j, hm⟩ hn
      | _ => rfl
  have := (fresh_run Node.new as ⟨rfl, rfl, fun _ => rfl⟩ ha).1
  rw [h] at this
  exact absurd this (by decide)

example : (Node.new.run [.at 1 (.arrive [7]), .node, .at 0 .stop, .node]).1.up = false := by decide

example : seenBy 1 (Node.new.run [.at 1 (.arrive [7]), .at 0 (.write [1]), .at 1 .forward, .node,
    .at 0 .send, .at 1 (.read 5)]).2 = [.got [7]] := by decide

end Verif.Service

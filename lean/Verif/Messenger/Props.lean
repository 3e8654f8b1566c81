import Verif.Messenger.Lemmas
/-! Property C37: messages of a session arrive in the order handed over, exactly once. -/
namespace Verif.Messenger
open Verif

variable {T : Type}

/-- **C37 (order, no duplicates).** In both modes, whatever the re-keys do and however the tasks interleave, even if
calls fail: what the peer's application has received is a beginning of what was handed over. -/
theorem C37_in_order (mode : Mode) (ts : List (Step T)) (hlen : (handed mode Sys.new ts).length < 2 ^ 64) :
    (run mode Sys.new ts).chan.out <+: handed mode Sys.new ts := by
  obtain ⟨lost, ⟨-, hc, hp⟩, -, -⟩ := inv_run (mode := mode) ts inv_new
  have ha : (run mode Sys.new ts).accepted = handed mode Sys.new ts := handed_run (mode := mode) ts Sys.new
  rw [← ha] at hlen ⊢
  have hl : (run mode Sys.new ts).arrived.length < 2 ^ 64 := by
    have := hp.length_eq
    rw [numbered_length, List.length_append] at this
    omega
  obtain ⟨-, h2⟩ := Ordered.C08_output_is_numbered_prefix _ hl
  rw [← hc] at h2
  rw [List.prefix_iff_getElem?]
  intro i hi
  exact mem_numbered.1 (hp.subset (List.mem_append_left _ (h2 i hi)))

/-- **C37 (completeness).** If no call failed and all messages have come to rest, the peer's application has received
everything that was handed over. -/
theorem C37_all_arrive (mode : Mode) (ts : List (Step T)) (hlen : (handed mode Sys.new ts).length < 2 ^ 64)
    (hf : ∀ t ∈ ts, ¬ Fails t) (hq : Quiet (run mode Sys.new ts)) :
    (run mode Sys.new ts).chan.out = handed mode Sys.new ts := by
  have hpre := C37_in_order mode ts hlen
  obtain ⟨lost, ⟨-, hc, hp⟩, -, h3⟩ := inv_run (mode := mode) ts inv_new
  rw [h3 hf, hq.send, hq.drain, hq.queue, hq.wire] at hp
  simp only [handS, handD, List.append_nil] at hp
  have ha : (run mode Sys.new ts).accepted = handed mode Sys.new ts := handed_run (mode := mode) ts Sys.new
  rw [ha] at hp
  have hl : (run mode Sys.new ts).arrived.length < 2 ^ 64 := by
    have := hp.length_eq
    rw [numbered_length] at this
    omega
  obtain ⟨⟨h4, -⟩, -⟩ := Ordered.C09_everything_deliverable_is_delivered _ hl
  rw [← hc] at h4
  refine hpre.eq_of_length_le ?_
  refine Nat.le_of_not_lt fun hlt => h4 ?_
  have := hp.symm.subset (mem_numbered.2 (List.getElem?_eq_getElem hlt))
  exact List.mem_map.2 ⟨_, this, rfl⟩

/-- **C37 (nothing waits for nothing, one thread).** If tasks are interrupted only where they wait and no call
failed, messages in the queue are always followed by an attempt to send them. -/
theorem C37_never_stuck_partial (mode : Mode) (ts : List (Step T)) (hf : ∀ t ∈ ts, ¬ Fails t) :
    ¬ Stuck (runCoop mode Sys.new ts) := by
  intro h
  have hc := coop_runCoop ts hf _ (coop_new mode) fun _ => ⟨rfl, rfl⟩
  rcases hc.queue h.queue with h1 | h1
  · exact h1 h.events
  · exact h1 h.drain

/-- **C37 (progress, one thread).** Then the background task alone empties the queue, if the re-keys now let it. -/
theorem C37_queue_drains_partial (ts : List (Step T)) (hf : ∀ t ∈ ts, ¬ Fails t) :
    ∃ us : List (Step T), (∀ u ∈ us, u = .wake ∨ u = .drainTrigger .sent) ∧
      (runCoop .perfect (runCoop .perfect Sys.new ts) us).queue = [] := by
  have hc := coop_runCoop ts hf _ (coop_new .perfect) fun _ => ⟨rfl, rfl⟩
  generalize runCoop .perfect Sys.new ts = s at hc
  have go : ∀ (q : List (Nat × T)) (s : Sys T) (m : Nat × T), s.queue = q → s.drainAt = .trigger m →
      ∃ us : List (Step T), (∀ u ∈ us, u = .wake ∨ u = .drainTrigger .sent) ∧ (runCoop .perfect s us).queue = [] := by
    intro q
    induction q with
    | nil => intro s m h _; exact ⟨[], by simp, h⟩
    | cons m' q ih =>
      intro s m h1 h2
      obtain ⟨us, h3, h4⟩ := ih (coop .perfect s (.drainTrigger .sent)) m'
        (by simp [coop, drainTrigger, h2, putBack, pop, h1]) (by simp [coop, drainTrigger, h2, putBack, pop, h1])
      refine ⟨.drainTrigger .sent :: us, ?_, h4⟩
      intro u hu
      rcases List.mem_cons.1 hu with rfl | hu
      · exact Or.inr rfl
      · exact h3 u hu
  rcases hc.drain with hd | ⟨m, hm⟩
  · cases hq : s.queue with
    | nil => exact ⟨[], by simp, hq⟩
    | cons m q =>
      have he : s.events ≠ 0 := by
        rcases hc.queue (by simp [hq]) with h | h
        · exact h
        · exact absurd hd h
      obtain ⟨us, h3, h4⟩ := go q (coop .perfect s .wake) m
        (by simp [coop, wake, hd, he, pop, hq]) (by simp [coop, wake, hd, he, pop, hq])
      refine ⟨.wake :: us, ?_, h4⟩
      intro u hu
      rcases List.mem_cons.1 hu with rfl | hu
      · exact Or.inl rfl
      · exact h3 u hu
  · exact go _ s m rfl hm

/-- **C37 (one thread is a case of several).** So order and completeness hold with one thread too. -/
theorem C37_coop_is_run (mode : Mode) (ts : List (Step T)) :
    ∃ us, ∀ s : Sys T, runCoop mode s ts = run mode s us := by
  induction ts with
  | nil => exact ⟨[], fun s => rfl⟩
  | cons t ts ih =>
    obtain ⟨us, h1⟩ := coop_run mode t
    obtain ⟨vs, h2⟩ := ih
    refine ⟨us ++ vs, fun s => ?_⟩
    rw [run_append, ← h1, ← h2]
    rfl

/-- **C37 (counterexample: a failed call).** If `trigger_rekey_with_payload` fails for the message with number `i`, in
`send` or in the background task, then whatever happens later the peer's application receives at most the messages
before it: the number is used up, so the ordered channel holds back all later messages for good. -/
theorem C37_counterexample_failure (mode : Mode) (ts us : List (Step T)) (i : Nat) (m : T)
    (t : Step T) (hlen : (handed mode Sys.new (ts ++ t :: us)).length < 2 ^ 64)
    (hfail : (t = .sendTrigger .failed ∧ (run mode Sys.new ts).sendAt = .trigger (i, m)) ∨
      (t = .drainTrigger .failed ∧ (run mode Sys.new ts).drainAt = .trigger (i, m))) :
    (run mode Sys.new (ts ++ t :: us)).chan.out.length ≤ i := by
  obtain ⟨lost, h1, -, -⟩ := inv_run (mode := mode) ts inv_new
  have h2 : ∃ lost', Inv (run mode Sys.new (ts ++ [t])) lost' ∧ (i, m) ∈ lost' := by
    rw [run_append]
    obtain ⟨hn, hc, hp⟩ := h1
    rcases hfail with ⟨rfl, hs⟩ | ⟨rfl, hs⟩ <;> rw [hs] at hp <;>
      refine ⟨[(i, m)] ++ lost, ?_, by simp⟩
    · simp only [run, step, sendTrigger, hs]
      exact ⟨hn, hc, perm_of _ _ _ hp fun a => by simp only [handS, List.count_append, List.count_nil]; omega⟩
    · simp only [run, step, drainTrigger, hs]
      exact ⟨hn, hc, perm_of _ _ _ hp fun a => by simp only [handD, List.count_append, List.count_nil]; omega⟩
  obtain ⟨l2, h2, hm⟩ := h2
  obtain ⟨l3, ⟨-, hc, hp⟩, h4, -⟩ := inv_run (mode := mode) us h2
  rw [← run_append, List.append_assoc, List.singleton_append] at hc hp
  have ha : (run mode Sys.new (ts ++ t :: us)).accepted = handed mode Sys.new (ts ++ t :: us) :=
    handed_run (mode := mode) (ts ++ t :: us) Sys.new
  rw [← ha] at hlen
  have hl : (run mode Sys.new (ts ++ t :: us)).arrived.length < 2 ^ 64 := by
    have := hp.length_eq
    rw [numbered_length, List.length_append] at this
    omega
  refine Nat.le_of_not_lt fun hlt => ?_
  obtain ⟨h5, -⟩ := Ordered.C08_output_is_numbered_prefix _ hl
  rw [← hc] at h5
  have hnd := (hp.map Prod.fst).nodup_iff.2 (numbered_nodup _)
  rw [List.map_append, List.nodup_append] at hnd
  refine hnd.2.2 i (h5 i hlt) i ?_ rfl
  refine List.mem_map.2 ⟨(i, m), ?_, rfl⟩
  simp [h4 hm]

/-- **C37 (counterexample: several threads).** The item for the background task is sent inside
`trigger_rekey_with_payload`, before `send` puts the message into the queue. If the background task reads it, and
the item of the end of the re-key, before that, the message waits although nothing is going on any more. -/
theorem C37_counterexample_stuck (a b : T) :
    ∃ ts : List (Step T), (∀ t ∈ ts, ¬ Fails t) ∧ handed .perfect Sys.new ts = [a, b] ∧
      Stuck (run .perfect Sys.new ts) ∧ (run .perfect Sys.new ts).chan.out = [a] := by
  refine ⟨[.call a, .sendTrigger .sent, .call b, .sendTrigger .returned, .arrive 0, .rekeyEnd, .wake, .pop, .wake, .pop,
    .sendEnd], ?_, rfl, ⟨rfl, rfl, by simp [run, step, call, sendTrigger, arrive, wake, pop, sendEnd, Sys.new], rfl⟩, rfl⟩
  simp [Fails]

/-- **C37 (counterexample: busy waiting).** While a re-key is going on and a message waits, the background task's own
attempt wakes it up again: two steps of it lead back to the same state, as often as one likes. -/
theorem C37_counterexample_spins (s : Sys T) (hd : s.drainAt = .idle) (he : s.events ≠ 0) (hq : s.queue ≠ []) (n : Nat) :
    runCoop .perfect s (List.flatten (List.replicate n [.wake, .drainTrigger .returned])) = s := by
  have one : coop .perfect (coop .perfect s .wake) (.drainTrigger .returned) = s := by
    obtain ⟨nextId, sendAt, drainAt, queue, events, wire, chan, accepted, arrived⟩ := s
    dsimp only at hd he hq
    subst hd
    cases queue with
    | nil => exact absurd rfl hq
    | cons m q =>
      simp only [coop, wake, he, if_false, pop, drainTrigger, putBack]
      congr 1
      omega
  induction n with
  | zero => rfl
  | succ n ih =>
    show runCoop .perfect (coop .perfect (coop .perfect s .wake) (.drainTrigger .returned)) _ = s
    rw [one]
    exact ih

/-- Perfect mode: message 1 has to wait, 2 overtakes it on the way; all arrive in order. -/
def sample : List (Step String) :=
  [.call "a", .sendTrigger .sent, .call "b", .sendTrigger .returned, .sendEnd, .rekeyEnd, .wake, .pop,
   .call "c", .sendTrigger .sent, .drainTrigger .returned, .putBack, .rekeyEnd, .wake, .pop, .drainTrigger .sent, .pop,
   .arrive 1, .arrive 1, .arrive 0]

example : (∀ t ∈ sample, ¬ Fails t) ∧ handed .perfect Sys.new sample = ["a", "b", "c"] ∧
    (run .perfect Sys.new sample).chan.out = ["a", "b", "c"] ∧ Quiet (run .perfect Sys.new sample) :=
  ⟨by simp [sample, Fails], rfl, rfl, ⟨rfl, rfl, rfl, rfl⟩⟩

/-- In the middle of it only the first has been delivered. -/
example : (run .perfect Sys.new (sample.take 17 ++ [.arrive 1, .arrive 0])).chan.out = ["a"] := rfl

/-- A state of the kind the busy waiting starts from. -/
def waiting : Sys String :=
  runCoop .perfect Sys.new [.call "a", .sendTrigger .sent, .call "b", .sendTrigger .returned]

example : waiting.drainAt = .idle ∧ waiting.events ≠ 0 ∧ waiting.queue = [(1, "b")] := ⟨rfl, by decide, rfl⟩

/-- A failed call: message 1 is dropped by the background task, message 2 arrives and is held back. -/
example : (run .perfect (Sys.new : Sys String)
    [.call "a", .sendTrigger .sent, .call "b", .sendTrigger .returned, .sendEnd, .rekeyEnd, .wake, .pop,
     .drainTrigger .failed, .call "c", .sendTrigger .sent, .arrive 0, .arrive 0]).chan.out = ["a"] := rfl

end Verif.Messenger

import Verif.Uring.Lemmas

/-! # Properties C256-C259 -/

namespace Verif.Uring

/-! ## C256: the kernel writes only to buffers that are there and that nobody reads -/

/-- Refuted: whenever the loop is left while a slot is at the kernel, a datagram that comes before
the ring is dropped is written to freed memory. -/
theorem C256_counterexample (slots : Nat) (es : List Event) (i d : Nat)
    (hl : (run (init slots) es).phase = .leaving) (hi : i ∈ (run (init slots) es).armed) :
    (run (init slots) (es ++ [.thread, .complete i (some d)])).wild = 1 := by
  have hw := (ok_run slots es).wild (by rw [hl]; simp) (by rw [hl]; simp)
  rw [run_append]
  generalize run (init slots) es = s at hl hi hw
  show (complete (thread s) i (some d)).wild = 1
  have h1 : thread s = { s with phase := .freed } := by rw [thread, hl]
  rw [h1]
  simp [complete, hi, hw]

/-- The drop of the receiver leads there with all slots at the kernel. -/
example : let s := run (init recvSlots) [.thread, .thread, .thread, .dropRx, .thread]
    s.phase = .leaving ∧ s.armed = List.range 16 := by decide

/-- Partial: while the loop runs, and until the slots are dropped, nothing is written to freed
memory, and a slot whose completion is in work or in the queue is not at the kernel.  What is
missing: the time between the drop of the slots and that of the ring. -/
theorem C256_partial (slots : Nat) (es : List Event)
    (h : (run (init slots) es).phase ≠ .freed) (h' : (run (init slots) es).phase ≠ .over) :
    (run (init slots) es).wild = 0 ∧
      ∀ p ∈ (run (init slots) es).batch ++ (run (init slots) es).cq,
        p.1 ∉ (run (init slots) es).armed ∧ p.1 ∉ (run (init slots) es).sq := by
  have hk := ok_run slots es
  refine ⟨hk.wild h h', ?_⟩
  intro p hp
  have hc := hk.slots h' p.1
  have h1 : cnt (run (init slots) es) p.1 ≤ 1 := by rw [hc]; split <;> omega
  unfold cnt at h1
  have h2 : 0 < ((run (init slots) es).cq.map Prod.fst).count p.1 +
      ((run (init slots) es).batch.map Prod.fst).count p.1 := by
    rcases List.mem_append.mp hp with hp | hp
    · have := List.count_pos_iff.mpr (List.mem_map_of_mem (f := Prod.fst) hp); omega
    · have := List.count_pos_iff.mpr (List.mem_map_of_mem (f := Prod.fst) hp); omega
  constructor <;> intro hm <;> have := List.count_pos_iff.mpr hm <;> omega

/-! ## C257: the receiver gets what the kernel took, in its order -/

theorem C257_order (slots : Nat) (es : List Event) :
    (run (init slots) es).out <+: (run (init slots) es).taken := (given_run slots es).pre

/-- While the receiver is there, nothing is lost: the rest is in the queues. -/
theorem C257_rest (slots : Nat) (es : List Event) (h : (run (init slots) es).rxOpen = true) :
    (run (init slots) es).out ++
      ((run (init slots) es).batch ++ (run (init slots) es).cq).map Prod.snd =
        (run (init slots) es).taken := (given_run slots es).all h

example : (run (init 2) [.complete 1 (some 7), .complete 0 (some 8), .thread, .thread, .thread,
    .thread]).out = [some 7, some 8] := by decide

/-! ## C258: no slot is lost, and the queue is never full -/

theorem C258_slots (slots : Nat) (es : List Event) (h : (run (init slots) es).phase ≠ .over)
    (k : Nat) : (run (init slots) es).places.count k = if k < slots then 1 else 0 := by
  rw [cnt_places]
  exact (ok_run slots es).slots h k

/-- The queue always has room for a slot that is submitted again, with the sizes in use. -/
theorem C258_room (es : List Event) (h : (run (init recvSlots) es).phase ≠ .over) :
    (run (init recvSlots) es).sq.length < ringEntries := by
  have hc := C258_slots recvSlots es h
  have hle : ∀ (l : List Nat) (n : Nat), (∀ k, l.count k ≤ if k < n then 1 else 0) →
      l.length ≤ n := by
    intro l n hl
    have hnd : l.Nodup := List.nodup_iff_count.mpr fun k => by
      have := hl k; split at this <;> omega
    have hsub : l ⊆ List.range n := by
      intro k hk
      have h1 := List.count_pos_iff.mpr hk
      have h2 := hl k
      split at h2
      · rename_i hlt; exact List.mem_range.mpr hlt
      · omega
    have := hnd.length_le_of_subset hsub
    rwa [List.length_range] at this
  have := hle (run (init recvSlots) es).sq recvSlots (fun k => by
    have h1 := hc k
    rw [cnt_places, cnt] at h1
    rw [← h1]; omega)
  simp only [recvSlots, ringEntries] at this ⊢
  omega

/-! ## C259: the loop ends when the receiver is dropped -/

/-- From every state of the loop, without anything more from the kernel. -/
theorem C259_ends (slots : Nat) (es : List Event) (h : (run (init slots) es).looping)
    (hd : (run (init slots) es).shutdown = true) :
    ∃ k, (run (init slots) (es ++ List.replicate k .thread)).phase = .leaving := by
  simp only [run_append]
  generalize run (init slots) es = s at h hd
  rcases h with h | h | h
  · refine ⟨1, ?_⟩
    show (thread s).phase = .leaving
    unfold thread
    simp [h, hd]
  · obtain ⟨k, hk⟩ := handle_ends s.cq.length (thread s)
      (by rw [thread, h]; exact Nat.le_refl _)
      (by rw [thread, h]) (by rw [thread_shutdown]; exact hd)
    exact ⟨k + 1, hk⟩
  · exact handle_ends s.batch.length s (Nat.le_refl _) h hd

/-- So it ends after the receiver is dropped, whatever came before and after the drop. -/
theorem C259_dropped (slots : Nat) (es : List Event) (h : (run (init slots) es).looping)
    (hd : .dropRx ∈ es) :
    ∃ k, (run (init slots) (es ++ List.replicate k .thread)).phase = .leaving :=
  C259_ends slots es h (dropped_shutdown es _ hd)

/-- While the receiver is there and the ring works, the loop is left only after an error was handed
on. -/
theorem C259_why (slots : Nat) (es : List Event) (hd : .dropRx ∉ es) (hr : .ringFails ∉ es)
    (hl : ¬ (run (init slots) es).looping) : none ∈ (run (init slots) es).out :=
  (free_run slots es _ (free_init slots) hd hr).left hl

/-- And after an error was handed on, the thread waits for nothing any more: it works on what it has
read, or has left. -/
theorem C259_error (slots : Nat) (es : List Event) (hd : .dropRx ∉ es) (hr : .ringFails ∉ es)
    (he : none ∈ (run (init slots) es).out) :
    (run (init slots) es).phase ≠ .check ∧ (run (init slots) es).phase ≠ .reap :=
  ⟨fun h => (free_run slots es _ (free_init slots) hd hr).quiet (.inl h) he,
    fun h => (free_run slots es _ (free_init slots) hd hr).quiet (.inr h) he⟩

example : let s := run (init 2) [.complete 1 none, .thread, .thread, .complete 0 (some 8), .thread,
      .thread]
    s.phase = .leaving ∧ s.out = [none] ∧ s.taken = [none, some 8] := by decide

end Verif.Uring

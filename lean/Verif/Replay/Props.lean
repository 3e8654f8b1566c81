import Verif.Replay.Lemmas

/-! Properties C01, C02, C03 of the anti-replay container. -/
namespace Verif.Replay

attribute [local irreducible] historyLen u64Max

/-- **C01.** In every history of calls, two acceptances of the same id are separated by a reset. -/
theorem C01_accept_at_most_once (ops : List Op) (p : Nat) (a b c : List Event)
    (h : (run init ops).2 = a ++ Event.accepted p :: b ++ Event.accepted p :: c) :
    Event.reset ∈ b := by
  by_contra hb
  obtain ⟨oa, op, ob, -, h2, h3⟩ := run_split h
  have hinv := inv_run (inv_init 0) oa
  obtain ⟨-, h4⟩ := step_accepted h3
  have h5 := ((onPid_true_iff hinv p).1 h4).1
  apply h5
  show p ∈ acceptedSince [] (run init oa).2
  rw [h2, mem_acceptedSince_iff]
  exact ⟨a, b, rfl, hb⟩

/-- The situation of C01 is real: an id is accepted, replayed (refused), accepted again after a reset. -/
example : (run init [.recv 5, .recv 5, .reset, .recv 5]).2 =
    [] ++ Event.accepted 5 :: [.rejected 5, .reset] ++ Event.accepted 5 :: [] := by decide +kernel

/-- **C02 (state form).** After any history, an id is accepted exactly when it was not accepted since the
last reset and it is at most 1024 behind one past every id accepted since the last reset
(one past saturates at `u64::MAX`). -/
theorem C02_accept_iff (ops : List Op) (p : Nat) :
    (step (run init ops).1 (.recv p)).2 = Event.accepted p ↔
      ¬ AcceptedSinceReset (run init ops).2 p ∧
      ∀ q, AcceptedSinceReset (run init ops).2 q → min (q + 1) (2 ^ 64 - 1) ≤ p + 1024 := by
  have hinv : Inv (run init ops).1 (acceptedSince [] (run init ops).2) := inv_run (inv_init 0) ops
  have hstep : (step (run init ops).1 (.recv p)).2 = Event.accepted p ↔
      (onPidReceived (run init ops).1 p).2 = true := by
    rw [step_recv]; by_cases hb : (onPidReceived (run init ops).1 p).2 = true <;> simp [hb]
  rw [hstep, onPid_true_iff hinv, mem_acceptedSince_iff]
  refine and_congr_right fun _ => ?_
  have hH : historyLen = 1024 := by unfold historyLen; rfl
  have hU : u64Max = 2 ^ 64 - 1 := by unfold u64Max; rfl
  constructor
  · intro h q hq
    have := hinv.hwUpper q (mem_acceptedSince_iff.2 hq)
    unfold satSucc at this
    rw [hU] at this
    omega
  · intro h
    rcases hinv.hwAttained with h0 | ⟨q, hq, he⟩
    · omega
    · have := h q (mem_acceptedSince_iff.1 hq)
      unfold satSucc at he
      rw [hU] at he
      omega

/-- **C02 (order form).** Any duplicate-free arrival order in which no id comes after one more than 1023 larger
is accepted completely. -/
theorem C02_reordering_within_window_lossless (l : List Nat) (hnd : l.Nodup)
    (hwin : l.Pairwise (fun earlier later => earlier ≤ later + 1023)) :
    (run init (l.map Op.recv)).2 = l.map Event.accepted :=
  recv_all_accepted l [] init (inv_init 0) (by simpa using hnd) (by simpa using hwin)

/-- The order form of C02 applies to a genuinely reordered sequence. -/
example : (run init ([1023, 0, 2, 1].map Op.recv)).2 = [1023, 0, 2, 1].map Event.accepted :=
  C02_reordering_within_window_lossless _ (by decide +kernel) (by decide +kernel)

/-- The bound 1023 is sharp: one further and the late id is lost. -/
example : (run init ([1023, 0].map Op.recv)).2 = [.accepted 1023, .accepted 0] ∧
    (run init ([1024, 0].map Op.recv)).2 = [.accepted 1024, .rejected 0] := by
  decide +kernel

/-- The state form of C02 meets both outcomes. -/
example : (step (run init [.recv 2000]).1 (.recv 977)).2 = Event.accepted 977 ∧
    (step (run init [.recv 2000]).1 (.recv 976)).2 = Event.rejected 976 := by decide +kernel

/-- **C03.** The container never remembers more than 1025 ids; it never remembers more than 1024 unless the id
`u64::MAX` itself was received; and every remembered id is inside the window below the high-water mark. -/
theorem C03_memory_bounded (ops : List Op) (hu : ∀ op ∈ ops, op.InU64) :
    (run init ops).1.seen.length ≤ 1025 ∧
    (Op.recv (2 ^ 64 - 1) ∉ ops → (run init ops).1.seen.length ≤ 1024) := by
  have hinv : Inv (run init ops).1 (acceptedSince [] (run init ops).2) := inv_run (inv_init 0) ops
  have hH : historyLen = 1024 := by unfold historyLen; rfl
  have hU : u64Max = 2 ^ 64 - 1 := by unfold u64Max; rfl
  -- ids accepted were received
  have hrecv : ∀ p, p ∈ acceptedSince [] (run init ops).2 → Op.recv p ∈ ops := by
    intro p hp
    rw [mem_acceptedSince_iff] at hp
    obtain ⟨a, b, h, -⟩ := hp
    obtain ⟨oa, op, ob, h1, -, h3⟩ := run_split h
    obtain ⟨h4, -⟩ := step_accepted h3
    subst h4; rw [h1]; simp
  constructor
  · apply nodup_length_le_of_range hinv.nodupSeen (lo := (run init ops).1.highWater - 1024)
    intro p hp
    obtain ⟨hp1, hp2⟩ := (hinv.seenIff p).1 hp
    have h1 := hinv.hwUpper p hp1
    have h2 : p ≤ u64Max := hu _ (hrecv p hp1)
    unfold satSucc at h1
    omega
  · intro hmax
    apply nodup_length_le_of_range hinv.nodupSeen (lo := (run init ops).1.highWater - 1024)
    intro p hp
    obtain ⟨hp1, hp2⟩ := (hinv.seenIff p).1 hp
    have h1 := hinv.hwUpper p hp1
    have h2 : p ≤ u64Max := hu _ (hrecv p hp1)
    have h3 : p ≠ 2 ^ 64 - 1 := by
      rintro rfl; exact hmax (hrecv _ hp1)
    unfold satSucc at h1
    omega

example : ∀ op ∈ [Op.recv 3, .next, .recv 5000, .reset, .recv (2 ^ 64 - 2)], op.InU64 := by
  simp [Op.InU64, u64Max]

/-- The exceptional 1025th entry does occur at the end of the id space: with 1024 consecutive ids ending at
`u64::MAX - 1` remembered, accepting `u64::MAX` (which does not move the high-water mark) adds one more. -/
theorem C03_1025_reached :
    (run init (((List.range' (2 ^ 64 - 1 - 1024) 1025).map Op.recv))).1.seen.length = 1025 := by
  have hU : u64Max = 2 ^ 64 - 1 := by unfold u64Max; rfl
  have hH : historyLen = 1024 := by unfold historyLen; rfl
  generalize hl : List.range' (2 ^ 64 - 1 - 1024) 1025 = l
  have hmem : ∀ p, p ∈ l ↔ 2 ^ 64 - 1 - 1024 ≤ p ∧ p ≤ 2 ^ 64 - 1 := by
    intro p; rw [← hl, List.mem_range'_1]; omega
  have hnd : l.Nodup := by rw [← hl]; exact List.nodup_range'
  have hlen : l.length = 1025 := by rw [← hl, List.length_range']
  have hwin : l.Pairwise (fun earlier later => earlier ≤ later + 1023) := by
    rw [← hl]
    exact (List.pairwise_lt_range' (step := 1)).imp (fun h => by omega)
  have hinv : Inv (run init (l.map Op.recv)).1 (acceptedSince [] (run init (l.map Op.recv)).2) :=
    inv_run (inv_init 0) _
  rw [C02_reordering_within_window_lossless l hnd hwin] at hinv
  have hsub : l ⊆ (run init (l.map Op.recv)).1.seen := by
    intro p hp
    refine (hinv.seenIff p).2 ⟨?_, ?_⟩
    · exact mem_acceptedSince_of_mem (by simp) (Or.inr (List.mem_map_of_mem hp))
    · have := (hmem p).1 hp
      rcases hinv.hwAttained with h | ⟨q, -, h⟩
      · omega
      · have : satSucc q ≤ u64Max := by unfold satSucc; omega
        omega
  have h1 := (hnd.subperm hsub).length_le
  have h2 := (C03_memory_bounded (l.map Op.recv) (by
    intro op hop
    obtain ⟨p, hp, rfl⟩ := List.mem_map.1 hop
    have := (hmem p).1 hp
    show p ≤ u64Max
    omega)).1
  omega

end Verif.Replay

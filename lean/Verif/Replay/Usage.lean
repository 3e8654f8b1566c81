import Verif.Replay.Lemmas
/-!
# C147: the numbering of outgoing packets, and whether a container was used
-/
namespace Verif.Replay
/-- What happened after the last reset. -/
def sinceReset (trace : List Event) : List Event := (trace.reverse.takeWhile (fun e => e != .reset)).reverse

/-- The event hands out an id. -/
def Event.isIssued : Event → Bool
  | .issued _ => true
  | _ => false

/-- The event hands out or accepts an id. -/
def Event.isUse : Event → Bool
  | .issued _ => true
  | .accepted _ => true
  | _ => false

theorem sinceReset_snoc (es : List Event) (e : Event) :
    sinceReset (es ++ [e]) = if e = .reset then [] else sinceReset es ++ [e] := by
  unfold sinceReset
  rw [List.reverse_append, List.reverse_singleton, List.singleton_append, List.takeWhile_cons]
  by_cases h : e = .reset
  · simp [h]
  · simp [h]

theorem run_snoc (c : Container) (ops : List Op) (op : Op) :
    run c (ops ++ [op]) = ((step (run c ops).1 op).1, (run c ops).2 ++ [(step (run c ops).1 op).2]) := by
  rw [run_append]; rfl

/-- The counter and the mark, from the events. -/
theorem usage_run (ops : List Op) :
    (run init ops).1.counterOut = ((sinceReset (run init ops).2).countP Event.isIssued) % 2 ^ 64 ∧
    ((run init ops).1.highWater ≠ 0 ↔ ∃ p, Event.accepted p ∈ sinceReset (run init ops).2) := by
  induction ops using List.reverseRecOn with
  | nil => simp [run, init, sinceReset]
  | append_singleton ops op ih =>
    obtain ⟨ih1, ih2⟩ := ih
    rw [run_snoc, sinceReset_snoc]
    generalize run init ops = r at *
    cases op with
    | recv p =>
      simp only [step]
      unfold onPidReceived
      dsimp only
      split
      · simp [List.countP_append, Event.isIssued, ih1, ih2]
      · split
        · simp [List.countP_append, Event.isIssued, ih1, ih2]
        · refine ⟨by simp [List.countP_append, Event.isIssued, ih1], ?_⟩
          have : max r.1.highWater (satSucc p) ≠ 0 := by
            have : satSucc p ≠ 0 := by unfold satSucc u64Max; omega
            omega
          simp [this]
    | next =>
      simp only [step, getNextPid]
      refine ⟨?_, by simp [ih2]⟩
      simp [List.countP_append, Event.isIssued, ih1]
    | reset => simp [step, reset, init]

/-- **C147 (numbering).** The id handed out is the number of ids handed out since the last reset. -/
theorem C147_issued_consecutive (ops : List Op) :
    (step (run init ops).1 .next).2 =
      .issued ((sinceReset (run init ops).2).countP Event.isIssued % 2 ^ 64) := by
  simp only [step, getNextPid, (usage_run ops).1]

/-- **C147 (use).** The container reports that it was used exactly if an id was handed out or accepted since the last
reset, as long as fewer than 2^64 ids were handed out. -/
theorem C147_tracked_iff (ops : List Op)
    (hc : (sinceReset (run init ops).2).countP Event.isIssued < 2 ^ 64) :
    hasTrackedPackets (run init ops).1 = true ↔ ∃ e ∈ sinceReset (run init ops).2, e.isUse = true := by
  obtain ⟨h1, h2⟩ := usage_run ops
  rw [Nat.mod_eq_of_lt hc] at h1
  unfold hasTrackedPackets
  simp only [Bool.or_eq_true, bne_iff_ne, ne_eq]
  rw [h1]
  constructor
  · rintro (h | h)
    · obtain ⟨e, he, hi⟩ := List.countP_pos_iff.1 (Nat.pos_of_ne_zero h)
      exact ⟨e, he, by cases e <;> simp_all [Event.isIssued, Event.isUse]⟩
    · obtain ⟨p, hp⟩ := h2.1 h
      exact ⟨_, hp, rfl⟩
  · rintro ⟨e, he, hu⟩
    cases e with
    | accepted p => exact Or.inr (h2.2 ⟨p, he⟩)
    | issued p => exact Or.inl (Nat.pos_iff_ne_zero.1 (List.countP_pos_iff.2 ⟨_, he, rfl⟩))
    | rejected p => cases hu
    | reset => cases hu

/-- Used, then reset; and a container that only refused. -/
example : (step (run init [.next, .next, .reset, .next]).1 .next).2 = .issued 1 ∧
    hasTrackedPackets (run init [.next, .recv 4, .reset]).1 = false ∧
    hasTrackedPackets (run init [.next, .recv 4, .reset, .recv 0]).1 = true := by decide +kernel
end Verif.Replay

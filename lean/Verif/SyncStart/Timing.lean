import Verif.SyncStart.Lemmas
/-!
# Times in the synchronised start, for clocks that run with real time
-/
namespace Verif.SyncStart

/-- The two clocks differ from real time by constants. -/
structure Steady (c : Cfg) (oR oI : Int) : Prop where
  r : ∀ t, c.clkR t = t + oR
  i : ∀ t, c.clkI t = t + oI

def timeR (oR t0 t : Int) (r : RPc) (sent : List Msg) : Prop :=
  match r with
  | .start => True
  | .timed a => t0 + oR ≤ a ∧ a ≤ t + oR
  | .sent a => t0 + oR ≤ a ∧ a ≤ t + oR
  | .acked a _ => t0 + oR ≤ a ∧ a ≤ t + oR
  | .measured rtt _ => 0 ≤ rtt ∧ rtt ≤ t - t0
  | .planned rtt ts _ => 0 ≤ rtt ∧ rtt ≤ t - t0 ∧ ts ≤ t + oR + rtt
  | .confirmed rtt _ => 0 ≤ rtt ∧ rtt ≤ t - t0 ∧ ∀ ts, .ack ts ∈ sent → ts ≤ t + oR + rtt
  | .asleep till _ => ∀ ts, .ack ts ∈ sent → ts ≤ till + oR
  | .ran a _ => ∀ ts, .ack ts ∈ sent → ts ≤ a + oR
  | .failed => True

def timeI (oI t0 t : Int) (i : IPc) (taken : List Msg) : Prop :=
  match i with
  | .early ts _ => t0 + oI ≤ ts
  | .slept delta _ => 0 ≤ delta ∧ delta < 2 ^ 64 ∧ ∀ ts, .ack ts ∈ taken → ts ≤ t + oI + delta
  | .asleep till _ => ∀ ts, .ack ts ∈ taken → ts ≤ till + oI
  | .ready _ => ∀ ts, .ack ts ∈ taken → ts ≤ t + oI
  | .ran a _ => ∀ ts, .ack ts ∈ taken → ts ≤ a + oI
  | _ => True

structure Timed (oR oI t0 : Int) (s : St) : Prop where
  past : t0 ≤ s.t
  r : timeR oR t0 s.t s.r s.sentR
  i : timeI oI t0 s.t s.i s.takenI
  ack : ∀ ts, .ack ts ∈ s.sentR → ts ≤ s.t + oR + (s.t - t0)

theorem toU64_id {x : Int} (h : 0 ≤ x) (h1 : x < 2 ^ 64) : toU64 x = x := by
  unfold toU64; omega

theorem timeR_mono {oR t0 t t' : Int} {r : RPc} {sent : List Msg} (h : timeR oR t0 t r sent)
    (ht : t ≤ t') : timeR oR t0 t' r sent := by
  cases r with
  | start => trivial
  | timed a => simp only [timeR] at h ⊢; omega
  | sent a => simp only [timeR] at h ⊢; omega
  | acked a p => simp only [timeR] at h ⊢; omega
  | measured rtt p => simp only [timeR] at h ⊢; omega
  | planned rtt ts p => simp only [timeR] at h ⊢; omega
  | confirmed rtt p =>
      simp only [timeR] at h ⊢
      exact ⟨h.1, by omega, fun ts hts => by have := h.2.2 ts hts; omega⟩
  | asleep till p => exact h
  | ran a p => exact h
  | failed => trivial

theorem timeI_mono {oI t0 t t' : Int} {i : IPc} {taken : List Msg} (h : timeI oI t0 t i taken)
    (ht : t ≤ t') : timeI oI t0 t' i taken := by
  cases i with
  | slept d p =>
      simp only [timeI] at h ⊢
      exact ⟨h.1, h.2.1, fun ts hts => by have := h.2.2 ts hts; omega⟩
  | ready p =>
      simp only [timeI] at h ⊢
      exact fun ts hts => by have := h ts hts; omega
  | asleep till p => exact h
  | ran a p => exact h
  | early ts p => exact h
  | start => trivial
  | gotSyn p => trivial
  | sent p => trivial
  | gotAck ts p => trivial
  | failed => trivial

theorem timed_stepR {c : Cfg} {oR oI t0 : Int} {s : St} (hc : Steady c oR oI) (hi : Inv c s)
    (h : Timed oR oI t0 s) (hlt : s.t < t0 + 2 ^ 62) (seen : Bool) :
    Timed oR oI t0 (stepR c s seen) := by
  obtain ⟨hp, hr, hI, ha⟩ := h
  have hR := hi.r
  unfold stepR
  split <;> rename_i hpc <;> rw [hpc] at hr hR <;> simp only [timeR, okR] at hr hR
  · exact ⟨hp, by simp only [timeR, hc.r]; omega, hI, ha⟩
  · unfold sendR
    split
    · refine ⟨hp, ?_, hI, ?_⟩
      · simp only [timeR]; exact hr
      · intro ts hts; simp [hR] at hts
    · split
      · exact ⟨hp, trivial, hI, ha⟩
      · refine ⟨hp, ?_, hI, ?_⟩
        · simp only [timeR]; exact hr
        · intro ts hts; simp [hR] at hts
  · unfold takeR
    split
    · exact ⟨hp, by rw [hpc]; exact hr, hI, ha⟩
    · rename_i m q hq
      refine ⟨hp, ?_, hI, ha⟩
      simp only
      cases m <;> simp only [Option.getD_some, Option.getD_none, hpc] <;> exact hr
  · refine ⟨hp, ?_, hI, ha⟩
    simp only [timeR, hc.r]; omega
  · refine ⟨hp, ?_, hI, ha⟩
    simp only [timeR, hc.r]; omega
  · have hmem : ∀ m, ∀ ts, Msg.ack ts ∈ s.sentR ++ [m] → Msg.ack ts = m := by
      intro m ts hts
      rw [hR.2.1] at hts
      simpa using hts
    unfold sendR
    split
    · refine ⟨hp, ?_, hI, ?_⟩
      · simp only [timeR]
        refine ⟨hr.1, hr.2.1, fun ts hts => ?_⟩
        have := hmem _ ts hts
        simp only [Msg.ack.injEq] at this
        omega
      · intro ts hts
        have := hmem _ ts hts
        simp only [Msg.ack.injEq] at this
        simp only; omega
    · split
      · exact ⟨hp, trivial, hI, ha⟩
      · refine ⟨hp, ?_, hI, ?_⟩
        · simp only [timeR]
          refine ⟨hr.1, hr.2.1, fun ts hts => ?_⟩
          have := hmem _ ts hts
          simp only [Msg.ack.injEq] at this
          omega
        · intro ts hts
          have := hmem _ ts hts
          simp only [Msg.ack.injEq] at this
          simp only; omega
  · refine ⟨hp, ?_, hI, ha⟩
    simp only [timeR]
    rw [toU64_id hr.1 (by omega)]
    exact fun ts hts => by have := hr.2.2 ts hts; omega
  · split
    · refine ⟨hp, ?_, hI, ha⟩
      simp only [timeR]
      exact fun ts hts => by have := hr ts hts; omega
    · exact ⟨hp, by rw [hpc]; exact hr, hI, ha⟩
  · exact ⟨hp, by rw [hpc]; exact hr, hI, ha⟩
  · exact ⟨hp, by rw [hpc]; exact hr, hI, ha⟩

theorem ack_taken_sent {c : Cfg} {s : St} (hi : Inv c s) (m : Msg) (h : m ∈ s.takenI) :
    m ∈ s.sentR := by
  obtain ⟨l, hl, _⟩ := hi.toI
  rw [← hl]
  simp [h]

theorem timed_stepI {c : Cfg} {oR oI t0 : Int} {s : St} (hc : Steady c oR oI) (hi : Inv c s)
    (h : Timed oR oI t0 s) (hlt : s.t < t0 + 2 ^ 62) (ho : oR - oI < 2 ^ 63) (seen : Bool) :
    Timed oR oI t0 (stepI c s seen) := by
  obtain ⟨hp, hr, hI, ha⟩ := h
  have hII := hi.i
  unfold stepI
  split <;> rename_i hpc <;> rw [hpc] at hI hII <;> simp only [timeI, okI] at hI hII
  · unfold takeI
    split
    · exact ⟨hp, hr, by rw [hpc]; trivial, ha⟩
    · rename_i m q hq
      refine ⟨hp, hr, ?_, ha⟩
      simp only
      cases m <;> simp only [Option.getD_some, Option.getD_none, hpc] <;> trivial
  · unfold sendI
    split
    · exact ⟨hp, hr, trivial, ha⟩
    · split <;> exact ⟨hp, hr, trivial, ha⟩
  · unfold takeI
    split
    · exact ⟨hp, hr, by rw [hpc]; trivial, ha⟩
    · rename_i m q hq
      refine ⟨hp, hr, ?_, ha⟩
      simp only
      cases m <;> simp only [Option.getD_some, Option.getD_none, hpc] <;> trivial
  · rename_i ts p
    split
    · rename_i hlt'
      refine ⟨hp, hr, ?_, ha⟩
      simp only [timeI]
      rw [hc.i] at hlt'
      omega
    · rename_i hlt'
      refine ⟨hp, hr, ?_, ha⟩
      simp only [timeI]
      intro ts' hts'
      rw [hII.2.2] at hts'
      simp at hts'
      rw [hc.i] at hlt'
      omega
  · rename_i ts p
    refine ⟨hp, hr, ?_, ha⟩
    have h1 := ha ts (ack_taken_sent hi _ (by rw [hII.2.2]; simp))
    simp only [timeI, hc.i]
    refine ⟨by omega, by omega, ?_⟩
    intro ts' hts'
    rw [hII.2.2] at hts'
    simp at hts'
    omega
  · refine ⟨hp, hr, ?_, ha⟩
    simp only [timeI]
    rw [toU64_id hI.1 hI.2.1]
    exact fun ts hts => by have := hI.2.2 ts hts; omega
  · split
    · refine ⟨hp, hr, ?_, ha⟩
      simp only [timeI]
      exact fun ts hts => by have := hI ts hts; omega
    · exact ⟨hp, hr, by rw [hpc]; exact hI, ha⟩
  · exact ⟨hp, hr, hI, ha⟩
  · exact ⟨hp, hr, by rw [hpc]; exact hI, ha⟩
  · exact ⟨hp, hr, by rw [hpc]; trivial, ha⟩

theorem timed_step {c : Cfg} {oR oI t0 : Int} {s : St} (hc : Steady c oR oI) (hi : Inv c s)
    (h : Timed oR oI t0 s) (hlt : s.t < t0 + 2 ^ 62) (ho : oR - oI < 2 ^ 63) (a : Act) :
    Timed oR oI t0 (step c s a) := by
  cases a with
  | tick d =>
      refine ⟨?_, timeR_mono h.r ?_, timeI_mono h.i ?_, ?_⟩
      · have := h.past; simp only [step]; omega
      · simp only [step]; omega
      · simp only [step]; omega
      · intro ts hts; have := h.ack ts hts; simp only [step]; omega
  | stepR seen => exact timed_stepR hc hi h hlt seen
  | stepI seen => exact timed_stepI hc hi h hlt ho seen
  | fwdR =>
      simp only [step]; split
      · exact h
      · split
        · exact ⟨h.past, h.r, h.i, h.ack⟩
        · exact h
  | fwdI =>
      simp only [step]; split
      · exact h
      · split
        · exact ⟨h.past, h.r, h.i, h.ack⟩
        · exact h
  | lose => exact ⟨h.past, h.r, h.i, h.ack⟩

theorem timed_run {c : Cfg} {oR oI t0 : Int} (hc : Steady c oR oI) (ho : oR - oI < 2 ^ 63)
    (as : List Act) : ∀ {s : St}, Inv c s → Timed oR oI t0 s → (run c s as).t < t0 + 2 ^ 62 →
      Timed oR oI t0 (run c s as) := by
  induction as with
  | nil => intro s _ h _; exact h
  | cons a as ih =>
      intro s hi h hlt
      have h1 := t_run c as (step c s a)
      have h2 := t_step c s a
      rw [run_cons] at hlt ⊢
      exact ih (inv_step hi a) (timed_step hc hi h (by omega) ho a) hlt

theorem timed_init (oR oI t0 : Int) : Timed oR oI t0 (St.init t0) := by
  refine ⟨Int.le_refl _, trivial, trivial, ?_⟩
  intro ts hts; simp [St.init] at hts

end Verif.SyncStart

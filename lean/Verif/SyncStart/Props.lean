import Verif.SyncStart.Timing
/-!
# Properties C132 and C133: synchronised start
-/
namespace Verif.SyncStart

/-! ## C132: exchange of payloads -/

/-- An end that runs has the payload of the other end, and the other end has its payload. -/
theorem C132_exchange (c : Cfg) (t0 : Int) (as : List Act) :
    let s := run c (St.init t0) as
    (∀ a p, s.r = .ran a p → p = c.payI ∧ Msg.syn c.payR ∈ s.takenI) ∧
    (∀ a p, s.i = .ran a p → p = c.payR ∧ Msg.synAck c.payI ∈ s.takenR) := by
  intro s
  have h : Inv c s := inv_run as (inv_init c t0)
  have hr := h.r
  have hi := h.i
  refine ⟨?_, ?_⟩
  · intro a p hs
    rw [hs] at hr
    simp only [okR] at hr
    refine ⟨hr.1, ?_⟩
    obtain ⟨l, hl, _⟩ := h.toR
    rw [hr.2.2] at hl
    cases hpc : s.i <;> rw [hpc] at hi <;> simp only [okI] at hi
    all_goals first
      | (rw [hi.1] at hl; simp at hl; done)
      | (rw [hi.2.1] at hl; simp at hl; done)
      | (rw [hi.2.2]; simp; done)
      | (obtain ⟨_, _, ts, hts⟩ := hi; rw [hts]; simp; done)
  · intro a p hs
    rw [hs] at hi
    simp only [okI] at hi
    refine ⟨hi.1, ?_⟩
    obtain ⟨_, _, ts, hts⟩ := hi
    obtain ⟨l, hl, _⟩ := h.toI
    rw [hts] at hl
    cases hpc : s.r <;> rw [hpc] at hr <;> simp only [okR] at hr
    all_goals first
      | (rw [hr.1] at hl; simp at hl; done)
      | (rw [hr.2.1] at hl; simp at hl; done)
      | (rw [hr.2.2]; simp; done)
      | (rcases hr with hr | hr <;> rw [hr.1] at hl <;> simp at hl; done)

def rankR : RPc → Nat
  | .start => 8
  | .timed _ => 7
  | .sent _ => 6
  | .acked _ _ => 5
  | .measured _ _ => 4
  | .planned _ _ _ => 3
  | .confirmed _ _ => 2
  | .asleep _ _ => 1
  | .ran _ _ => 0
  | .failed => 0

def rankI : IPc → Nat
  | .start => 8
  | .gotSyn _ => 7
  | .sent _ => 6
  | .gotAck _ _ => 5
  | .early _ _ => 4
  | .slept _ _ => 3
  | .asleep _ _ => 2
  | .ready _ => 1
  | .ran _ _ => 0
  | .failed => 0

/-- Both ends have run. -/
def bothRan (s : St) : Prop := (∃ a p, s.r = .ran a p) ∧ ∃ a p, s.i = .ran a p

theorem progress {c : Cfg} {s : St} (h : Inv c s) (hup : s.up = true) (hfr : s.r ≠ .failed)
    (hfi : s.i ≠ .failed) (hn : ¬ bothRan s) :
    ∃ as, Act.lose ∉ as ∧ (run c s as).up = true ∧ (run c s as).r ≠ .failed ∧
      (run c s as).i ≠ .failed ∧
      rankR (run c s as).r + rankI (run c s as).i < rankR s.r + rankI s.i := by
  have hr := h.r
  have hi := h.i
  obtain ⟨l, hl, hlu⟩ := h.toI
  obtain ⟨k, hk, hku⟩ := h.toR
  have hl0 := hlu hup
  have hk0 := hku hup
  subst hl0 hk0
  -- a step of the initiator that does not wait for a packet
  have stepi : (∀ p, s.i ≠ .sent p) → s.i ≠ .start → (∀ a p, s.i ≠ .ran a p) →
      ∃ as, Act.lose ∉ as ∧ (run c s as).up = true ∧ (run c s as).r ≠ .failed ∧
      (run c s as).i ≠ .failed ∧
      rankR (run c s as).r + rankI (run c s as).i < rankR s.r + rankI s.i := by
    intro h1 h2 h3
    cases hpc : s.i with
    | start => exact absurd hpc h2
    | gotSyn p =>
        refine ⟨[.stepI true], by simp, ?_⟩
        simp [run, step, stepI, hpc, sendI, hup, hfr, rankI]
    | sent p => exact absurd hpc (h1 p)
    | gotAck ts p =>
        refine ⟨[.stepI true], by simp, ?_⟩
        simp only [run, List.foldl_cons, List.foldl_nil, step, stepI, hpc]
        split <;> simp [hup, hfr, rankI]
    | early ts p =>
        refine ⟨[.stepI true], by simp, ?_⟩
        simp [run, step, stepI, hpc, hup, hfr, rankI]
    | slept d p =>
        refine ⟨[.stepI true], by simp, ?_⟩
        simp [run, step, stepI, hpc, hup, hfr, rankI]
    | asleep till p =>
        refine ⟨[.tick (till - s.t).toNat, .stepI true], by simp, ?_⟩
        have : till ≤ s.t + ((till - s.t).toNat : Int) := by omega
        simp only [run, List.foldl_cons, List.foldl_nil, step, stepI, hpc, if_pos this]
        simp [hup, hfr, rankI]
    | ready p =>
        refine ⟨[.stepI true], by simp, ?_⟩
        simp [run, step, stepI, hpc, hup, hfr, rankI]
    | ran a p => exact absurd hpc (h3 a p)
    | failed => exact absurd hpc hfi
  cases hpc : s.r with
  | start =>
      refine ⟨[.stepR true], by simp, ?_⟩
      simp [run, step, stepR, hpc, hup, hfi, rankR]
  | timed a =>
      refine ⟨[.stepR true], by simp, ?_⟩
      simp [run, step, stepR, hpc, sendR, hup, hfi, rankR]
  | sent a =>
      rw [hpc] at hr
      simp only [okR] at hr
      rw [hr.1] at hl
      rw [hr.2] at hk
      cases hpi : s.i with
      | start =>
          rw [hpi] at hi
          simp only [okI] at hi
          rw [hi.2] at hl
          cases hb : s.boxI with
          | cons m q =>
              rw [hb] at hl; simp at hl
              obtain ⟨rfl, rfl, hq⟩ := hl
              refine ⟨[.stepI true], by simp, ?_⟩
              simp [run, step, stepI, takeI, hpi, hpc, hb, hup, rankI, rankR]
          | nil =>
              rw [hb] at hl; simp at hl
              refine ⟨[.fwdI, .stepI true], by simp, ?_⟩
              simp [run, step, stepI, takeI, hpi, hpc, hb, hl, hup, rankI, rankR]
      | gotSyn p =>
          have := stepi (by simp [hpi]) (by simp [hpi]) (by simp [hpi])
          rw [hpc, hpi] at this; exact this
      | sent p =>
          rw [hpi] at hi
          simp only [okI] at hi
          rw [hi.2.1] at hk
          cases hb : s.boxR with
          | cons m q =>
              rw [hb] at hk; simp at hk
              obtain ⟨rfl, rfl, hq⟩ := hk
              refine ⟨[.stepR true], by simp, ?_⟩
              simp [run, step, stepR, takeR, hpi, hpc, hb, hup, rankI, rankR]
          | nil =>
              rw [hb] at hk; simp at hk
              refine ⟨[.fwdR, .stepR true], by simp, ?_⟩
              simp [run, step, stepR, takeR, hpi, hpc, hb, hk, hup, rankI, rankR]
      | ran a p =>
          rw [hpi] at hi; simp only [okI] at hi
          obtain ⟨_, _, ts, hts⟩ := hi
          rw [hts] at hl; simp at hl
      | failed => exact absurd hpi hfi
      | gotAck ts p => rw [hpi] at hi; simp only [okI] at hi; rw [hi.2.2] at hl; simp at hl
      | early ts p => rw [hpi] at hi; simp only [okI] at hi; rw [hi.2.2] at hl; simp at hl
      | slept d p =>
          rw [hpi] at hi; simp only [okI] at hi
          obtain ⟨_, _, ts, hts⟩ := hi
          rw [hts] at hl; simp at hl
      | asleep d p =>
          rw [hpi] at hi; simp only [okI] at hi
          obtain ⟨_, _, ts, hts⟩ := hi
          rw [hts] at hl; simp at hl
      | ready p =>
          rw [hpi] at hi; simp only [okI] at hi
          obtain ⟨_, _, ts, hts⟩ := hi
          rw [hts] at hl; simp at hl
  | acked a p =>
      refine ⟨[.stepR true], by simp, ?_⟩
      simp [run, step, stepR, hpc, hup, hfi, rankR]
  | measured rtt p =>
      refine ⟨[.stepR true], by simp, ?_⟩
      simp [run, step, stepR, hpc, hup, hfi, rankR]
  | planned rtt ts p =>
      refine ⟨[.stepR true], by simp, ?_⟩
      simp [run, step, stepR, hpc, sendR, hup, hfi, rankR]
  | confirmed rtt p =>
      refine ⟨[.stepR true], by simp, ?_⟩
      simp [run, step, stepR, hpc, hup, hfi, rankR]
  | asleep till p =>
      refine ⟨[.tick (till - s.t).toNat, .stepR true], by simp, ?_⟩
      have : till ≤ s.t + ((till - s.t).toNat : Int) := by omega
      simp only [run, List.foldl_cons, List.foldl_nil, step, stepR, hpc, if_pos this]
      simp [hup, hfi, rankR]
  | failed => exact absurd hpc hfr
  | ran a p =>
      rw [hpc] at hr
      simp only [okR] at hr
      obtain ⟨_, ⟨ts, hts⟩, _⟩ := hr
      rw [hts] at hl
      cases hpi : s.i with
      | start =>
          rw [hpi] at hi
          simp only [okI] at hi
          rw [hi.2] at hl
          cases hb : s.boxI with
          | cons m q =>
              rw [hb] at hl; simp at hl
              obtain ⟨rfl, hq⟩ := hl
              refine ⟨[.stepI true], by simp, ?_⟩
              simp [run, step, stepI, takeI, hpi, hpc, hb, hup, rankI, rankR]
          | nil =>
              rw [hb] at hl; simp at hl
              refine ⟨[.fwdI, .stepI true], by simp, ?_⟩
              simp [run, step, stepI, takeI, hpi, hpc, hb, hl, hup, rankI, rankR]
      | sent q =>
          rw [hpi] at hi
          simp only [okI] at hi
          rw [hi.2.2] at hl
          cases hb : s.boxI with
          | cons m q =>
              rw [hb] at hl; simp at hl
              obtain ⟨rfl, hq⟩ := hl
              refine ⟨[.stepI true], by simp, ?_⟩
              simp [run, step, stepI, takeI, hpi, hpc, hb, hup, rankI, rankR]
          | nil =>
              rw [hb] at hl; simp at hl
              refine ⟨[.fwdI, .stepI true], by simp, ?_⟩
              simp [run, step, stepI, takeI, hpi, hpc, hb, hl, hup, rankI, rankR]
      | ran b q => exact absurd ⟨⟨a, p, hpc⟩, ⟨b, q, hpi⟩⟩ hn
      | _ =>
          have := stepi (by simp [hpi]) (by simp [hpi]) (by simp [hpi])
          rw [hpc, hpi] at this; exact this

/-- While the connection holds, both ends can always be brought to run, whatever their clocks
show. -/
theorem C132_both_can_run (c : Cfg) (t0 : Int) (as : List Act)
    (hup : (run c (St.init t0) as).up = true) :
    ∃ bs, Act.lose ∉ bs ∧ bothRan (run c (St.init t0) (as ++ bs)) := by
  have nofail : ∀ (as : List Act) (s : St), (run c s as).up = true → s.r ≠ .failed →
      s.i ≠ .failed → (run c s as).r ≠ .failed ∧ (run c s as).i ≠ .failed := by
    intro as
    induction as with
    | nil => intro s _ h1 h2; exact ⟨h1, h2⟩
    | cons a as ih =>
        intro s hu h1 h2
        rw [run_cons] at hu ⊢
        have upmono : ∀ (as : List Act) (s : St), (run c s as).up = true → s.up = true := by
          intro as
          induction as with
          | nil => intro s h; exact h
          | cons a as ih =>
              intro s h
              have := ih _ h
              cases a with
              | tick d => exact this
              | stepR seen =>
                  simp only [step, stepR] at this
                  split at this <;> (try exact this)
                  · unfold sendR at this
                    by_cases hs : s.up = true
                    · exact hs
                    · rw [if_neg hs] at this
                      split at this <;> exact this
                  · unfold takeR at this
                    split at this <;> exact this
                  · unfold sendR at this
                    by_cases hs : s.up = true
                    · exact hs
                    · rw [if_neg hs] at this
                      split at this <;> exact this
                  · split at this <;> exact this
              | stepI seen =>
                  simp only [step, stepI] at this
                  split at this <;> (try exact this)
                  · unfold takeI at this
                    split at this <;> exact this
                  · unfold sendI at this
                    by_cases hs : s.up = true
                    · exact hs
                    · rw [if_neg hs] at this
                      split at this <;> exact this
                  · unfold takeI at this
                    split at this <;> exact this
                  · split at this <;> exact this
                  · split at this <;> exact this
              | fwdR =>
                  simp only [step] at this
                  split at this
                  · exact this
                  · split at this <;> exact this
              | fwdI =>
                  simp only [step] at this
                  split at this
                  · exact this
                  · split at this <;> exact this
              | lose => simp [step] at this
        have hs : s.up = true := upmono [a] s (upmono as _ hu)
        refine ih _ hu ?_ ?_
        · cases a with
          | tick d => exact h1
          | stepR seen =>
              simp only [step, stepR]
              split <;> (try simp; done) <;> (try exact h1)
              · simp [sendR, hs]
              · unfold takeR
                split
                · exact h1
                · rename_i m q hq
                  cases m <;> simp [h1]
              · simp [sendR, hs]
              · split
                · simp
                · exact h1
          | stepI seen =>
              simp only [step, stepI]
              split <;> (try exact h1)
              · unfold takeI; split <;> exact h1
              · simp [sendI, hs, h1]
              · unfold takeI; split <;> exact h1
              · split <;> exact h1
              · split <;> exact h1
          | fwdR =>
              simp only [step]; split
              · exact h1
              · split <;> exact h1
          | fwdI =>
              simp only [step]; split
              · exact h1
              · split <;> exact h1
          | lose => exact h1
        · cases a with
          | tick d => exact h2
          | stepI seen =>
              simp only [step, stepI]
              split <;> (try simp; done) <;> (try exact h2)
              · unfold takeI
                split
                · exact h2
                · rename_i m q hq
                  cases m <;> simp [h2]
              · simp [sendI, hs]
              · unfold takeI
                split
                · exact h2
                · rename_i m q hq
                  cases m <;> simp [h2]
              · split <;> simp
              · split
                · simp
                · exact h2
          | stepR seen =>
              simp only [step, stepR]
              split <;> (try exact h2)
              · simp [sendR, hs, h2]
              · unfold takeR; split <;> exact h2
              · simp [sendR, hs, h2]
              · split <;> exact h2
          | fwdR =>
              simp only [step]; split
              · exact h2
              · split <;> exact h2
          | fwdI =>
              simp only [step]; split
              · exact h2
              · split <;> exact h2
          | lose => exact h2
  have key : ∀ (n : Nat) (s : St), rankR s.r + rankI s.i ≤ n → Inv c s → s.up = true →
      s.r ≠ .failed → s.i ≠ .failed → ∃ bs, Act.lose ∉ bs ∧ bothRan (run c s bs) := by
    intro n
    induction n with
    | zero =>
        intro s hn h hup h1 h2
        refine ⟨[], by simp, ?_⟩
        have hR : rankR s.r = 0 := by omega
        have hI : rankI s.i = 0 := by omega
        refine ⟨?_, ?_⟩
        · cases hp : s.r <;> rw [hp] at hR <;> simp [rankR] at hR
          · exact ⟨_, _, hp⟩
          · exact absurd hp h1
        · cases hp : s.i <;> rw [hp] at hI <;> simp [rankI] at hI
          · exact ⟨_, _, hp⟩
          · exact absurd hp h2
    | succ n ih =>
        intro s hn h hup h1 h2
        by_cases hb : bothRan s
        · exact ⟨[], by simp, hb⟩
        · obtain ⟨as, ha, hu, hr, hi, hlt⟩ := progress h hup h1 h2 hb
          obtain ⟨bs, hbl, hbb⟩ := ih (run c s as) (by omega) (inv_run as h) hu hr hi
          refine ⟨as ++ bs, ?_, ?_⟩
          · simp [ha, hbl]
          · rw [run_append]; exact hbb
  have hf := nofail as (St.init t0) hup (by simp [St.init]) (by simp [St.init])
  obtain ⟨bs, h1, h2⟩ := key _ _ (Nat.le_refl _) (inv_run as (inv_init c t0)) hup hf.1 hf.2
  exact ⟨bs, h1, by rw [run_append]; exact h2⟩

/-! ## C133: the ends start together

Full statement: both ends start at the same moment, up to the time local steps take, or neither
does. Proved for clocks that agree while the connection holds and the last packet is not slower
than the two before; false in general. -/

/-- Neither end starts, by its own clock, before the time in the `Ack`. -/
theorem C133_not_before_partial (c : Cfg) (t0 oR oI : Int) (as : List Act) (ts : Int)
    (hc : Steady c oR oI) (ho : oR - oI < 2 ^ 63)
    (ht : (run c (St.init t0) as).t < t0 + 2 ^ 62)
    (hts : Msg.ack ts ∈ (run c (St.init t0) as).sentR) :
    (∀ a p, (run c (St.init t0) as).r = .ran a p → ts ≤ a + oR) ∧
    (∀ b p, (run c (St.init t0) as).i = .ran b p → ts ≤ b + oI) := by
  have hi := inv_run as (inv_init c t0)
  have h := timed_run hc ho as (inv_init c t0) (timed_init oR oI t0) ht
  refine ⟨?_, ?_⟩
  · intro a p hr
    have := h.r
    rw [hr] at this
    exact this ts hts
  · intro b p hp
    have h1 := h.i
    have h2 := hi.i
    rw [hp] at h1 h2
    simp only [okI] at h2
    obtain ⟨_, _, ts', htk⟩ := h2
    obtain ⟨l, hl, _⟩ := hi.toI
    have : ts = ts' := by
      rcases sentR_shape hi with hs | hs | ⟨tx, hs⟩ <;> rw [hs] at hts hl
      · simp at hts
      · simp at hts
      · rw [htk] at hl
        simp at hts hl
        omega
    subst this
    exact h1 ts (by rw [htk]; simp)

/-- The run in which no end waits without need and the three packets take `d1`, `d2`, `d3`. -/
def promptRun (d1 d2 d3 : Nat) : List Act :=
  [.stepR true, .stepR true, .tick d1, .fwdI, .stepI true, .stepI true, .tick d2, .fwdR,
   .stepR true, .stepR true, .stepR true, .stepR true, .stepR true, .tick d3, .fwdI,
   .stepI true, .stepI true, .stepI true, .stepI true]

/-- When each end starts in that run, for clocks with the offsets `oR` and `oI`. -/
theorem C133_start_times_partial (c : Cfg) (t0 oR oI : Int) (d1 d2 d3 : Nat)
    (hc : Steady c oR oI) (hd : (d1 + d2 : Int) < 2 ^ 63)
    (ho : oR - oI + d1 + d2 - d3 < 2 ^ 63) :
    let s := run c (St.init t0) (promptRun d1 d2 d3)
    s.t = t0 + d1 + d2 + d3 ∧ s.r = .asleep (t0 + 2 * (d1 + d2)) c.payI ∧
    (oR - oI + d1 + d2 ≤ d3 → s.i = .ran s.t c.payR) ∧
    ((d3 : Int) < oR - oI + d1 + d2 →
      s.i = .asleep (t0 + 2 * (d1 + d2) + (oR - oI)) c.payR) := by
  have h1 : toU64 ((d1 : Int) + d2) = d1 + d2 := toU64_id (by omega) (by omega)
  have e1 : t0 + (d1 : Int) + d2 + oR - (t0 + oR) = d1 + d2 := by omega
  by_cases hlt : (d3 : Int) < oR - oI + d1 + d2
  · have h2 : t0 + (d1 : Int) + d2 + d3 + oI < t0 + d1 + d2 + oR + (d1 + d2) := by omega
    have h3 : ((t0 + (d1 : Int) + d2 + oR + (d1 + d2) - (t0 + d1 + d2 + d3 + oI)).natAbs : Int) =
        oR - oI + d1 + d2 - d3 := by omega
    have h4 : toU64 (oR - oI + d1 + d2 - d3) = oR - oI + d1 + d2 - d3 :=
      toU64_id (by omega) (by omega)
    have h5 : ¬ (oR - oI + d1 + d2 ≤ (d3 : Int)) := by omega
    simp [promptRun, run, step, stepR, stepI, sendR, sendI, takeR, takeI, St.init, hc.r, hc.i, e1,
      h1, h2, h3, h4, h5, hlt]
    omega
  · have h2 : ¬ (t0 + (d1 : Int) + d2 + d3 + oI < t0 + d1 + d2 + oR + (d1 + d2)) := by omega
    simp [promptRun, run, step, stepR, stepI, sendR, sendI, takeR, takeI, St.init, hc.r, hc.i, e1,
      h1, h2, hlt]
    omega

/-- Hence, with clocks that agree and a last packet that is not slower than the two before, both
are due at the same moment. -/
theorem C133_same_moment_partial (c : Cfg) (t0 o : Int) (d1 d2 d3 : Nat) (hc : Steady c o o)
    (hd : (d1 + d2 : Int) < 2 ^ 63) (h3 : d3 < d1 + d2) :
    let s := run c (St.init t0) (promptRun d1 d2 d3)
    s.r = .asleep (t0 + 2 * (d1 + d2)) c.payI ∧ s.i = .asleep (t0 + 2 * (d1 + d2)) c.payR := by
  have := C133_start_times_partial c t0 o o d1 d2 d3 hc hd (by omega)
  refine ⟨this.2.1, ?_⟩
  have h := this.2.2.2 (by omega)
  rw [h]
  simp

/-- The difference of the clocks goes over to the start in full. -/
theorem C133_counterexample_clocks (c : Cfg) (t0 : Int) (D : Nat) (d1 d2 d3 : Nat)
    (hc : Steady c D 0) (hD : (D + d1 + d2 : Int) < 2 ^ 63) (h3 : d3 < d1 + d2) :
    let s := run c (St.init t0) (promptRun d1 d2 d3)
    s.r = .asleep (t0 + 2 * (d1 + d2)) c.payI ∧
    s.i = .asleep (t0 + 2 * (d1 + d2) + D) c.payR := by
  have := C133_start_times_partial c t0 D 0 d1 d2 d3 hc (by omega) (by omega)
  refine ⟨this.2.1, ?_⟩
  have h := this.2.2.2 (by omega)
  rw [h]
  simp

/-- The initiator does not run before the time that the peer chose, however far away. -/
theorem C133_counterexample_peer_delays (c : Cfg) (s : St) (p D : Nat) (q : List Msg)
    (bs : List Act) (hi : s.i = .sent p) (hD : 0 < D) (hD' : (D : Int) < 2 ^ 63)
    (hb : s.boxI = .ack (c.clkI s.t + D) :: q) :
    ∀ a r, (run c s ([.stepI true, .stepI true, .stepI true, .stepI true] ++ bs)).i = .ran a r →
      s.t + D ≤ a := by
  have hpos : c.clkI s.t < c.clkI s.t + D := by omega
  have he : ((c.clkI s.t + D - c.clkI s.t).natAbs : Int) = D := by omega
  have hu : toU64 (D : Int) = D := toU64_id (by omega) (by omega)
  have h4 : (run c s [.stepI true, .stepI true, .stepI true, .stepI true]).i =
      .asleep (s.t + D) p := by
    simp [run, step, stepI, takeI, hi, hb, hpos, he, hu]
  have key : ∀ (bs : List Act) (s' : St) (u : Int), (s'.i = .asleep u p ∨
      ∃ a, s'.i = .ran a p ∧ u ≤ a) → ∀ a r, (run c s' bs).i = .ran a r → u ≤ a := by
    intro bs
    induction bs with
    | nil =>
        intro s' u h a r ha
        rcases h with h | ⟨b, h, hb⟩
        · simp [run, h] at ha
        · simp only [run, List.foldl_nil, h, IPc.ran.injEq] at ha
          omega
    | cons x bs ih =>
        intro s' u h a r ha
        refine ih (step c s' x) u ?_ a r ha
        have same : (step c s' x).i = s'.i → (step c s' x).i = .asleep u p ∨
            ∃ a, (step c s' x).i = .ran a p ∧ u ≤ a := by
          intro he; rw [he]; exact h
        cases x with
        | tick d => exact same rfl
        | stepR seen =>
            apply same
            simp only [step, stepR]
            split <;> (try rfl)
            · unfold sendR; repeat' split <;> (try rfl)
            · unfold takeR; split <;> rfl
            · unfold sendR; repeat' split <;> (try rfl)
            · split <;> rfl
        | stepI seen =>
            rcases h with h | ⟨b, h, hb⟩
            · simp only [step, stepI, h]
              split
              · rename_i hle
                exact .inr ⟨_, rfl, hle⟩
              · exact .inl h
            · simp only [step, stepI, h]
              exact .inr ⟨b, rfl, hb⟩
        | fwdR =>
            apply same
            simp only [step]; split
            · rfl
            · split <;> rfl
        | fwdI =>
            apply same
            simp only [step]; split
            · rfl
            · split <;> rfl
        | lose => exact same rfl
  intro a r ha
  rw [run_append] at ha
  exact key bs _ _ (.inl h4) a r ha

/-- A clock of the receiver that goes back during the exchange makes it sleep for centuries. -/
theorem C133_counterexample_clock_back (c : Cfg) (s : St) (a : Int) (p back : Nat)
    (hr : s.r = .acked a p) (hb : 0 < back) (hb' : (back : Int) < 2 ^ 63)
    (hclk : c.clkR s.t = a - back) (hup : s.up = true) :
    (run c s [.stepR true, .stepR true, .stepR true, .stepR true]).r =
      .asleep (s.t + (2 ^ 64 - back)) p := by
  have hu : toU64 (-(back : Int)) = 2 ^ 64 - back := by unfold toU64; omega
  have he : a - (back : Int) - a = -back := by omega
  simp [run, step, stepR, sendR, hr, hclk, hup, he, hu]

/-- An end that waits for a packet when the connection is lost waits for ever. -/
theorem C133_counterexample_waits_for_ever (c : Cfg) (s : St) (bs : List Act)
    (hup : s.up = false) :
    (s.i = .start → s.boxI = [] → (run c s bs).i = .start) ∧
    (∀ p, s.i = .sent p → s.boxI = [] → (run c s bs).i = .sent p) ∧
    (∀ a, s.r = .sent a → s.boxR = [] → (run c s bs).r = .sent a) := by
  have stepUpI : ∀ (s : St) (x : Act), s.up = false → s.boxI = [] →
      (s.i = .start ∨ ∃ p, s.i = .sent p) →
      (step c s x).up = false ∧ (step c s x).boxI = [] ∧ (step c s x).i = s.i := by
    intro s x hu hb hi
    cases x with
    | tick d => exact ⟨hu, hb, rfl⟩
    | stepR seen =>
        simp only [step, stepR]
        split <;> (try exact ⟨hu, hb, rfl⟩)
        · unfold sendR
          rw [if_neg (by simp [hu])]
          split <;> exact ⟨hu, hb, rfl⟩
        · unfold takeR; split <;> exact ⟨hu, hb, rfl⟩
        · unfold sendR
          rw [if_neg (by simp [hu])]
          split <;> exact ⟨hu, hb, rfl⟩
        · split <;> exact ⟨hu, hb, rfl⟩
    | stepI seen =>
        rcases hi with hi | ⟨p, hi⟩ <;> simp [step, stepI, takeI, hi, hb, hu]
    | fwdR =>
        simp only [step]; split
        · exact ⟨hu, hb, rfl⟩
        · rw [if_neg (by simp [hu])]; exact ⟨hu, hb, rfl⟩
    | fwdI =>
        simp only [step]; split
        · exact ⟨hu, hb, rfl⟩
        · rw [if_neg (by simp [hu])]; exact ⟨hu, hb, rfl⟩
    | lose => exact ⟨rfl, hb, rfl⟩
  have runI : ∀ (bs : List Act) (s : St), s.up = false → s.boxI = [] →
      (s.i = .start ∨ ∃ p, s.i = .sent p) → (run c s bs).i = s.i := by
    intro bs
    induction bs with
    | nil => intro s _ _ _; rfl
    | cons x bs ih =>
        intro s hu hb hi
        obtain ⟨h1, h2, h3⟩ := stepUpI s x hu hb hi
        rw [run_cons, ih _ h1 h2 (by rw [h3]; exact hi), h3]
  have stepUpR : ∀ (s : St) (x : Act) (a : Int), s.up = false → s.boxR = [] → s.r = .sent a →
      (step c s x).up = false ∧ (step c s x).boxR = [] ∧ (step c s x).r = .sent a := by
    intro s x a hu hb hr
    cases x with
    | tick d => exact ⟨hu, hb, hr⟩
    | stepR seen => simp [step, stepR, takeR, hr, hb, hu]
    | stepI seen =>
        simp only [step, stepI]
        split <;> (try exact ⟨hu, hb, hr⟩)
        · unfold takeI; split <;> exact ⟨hu, hb, hr⟩
        · unfold sendI
          rw [if_neg (by simp [hu])]
          split <;> exact ⟨hu, hb, hr⟩
        · unfold takeI; split <;> exact ⟨hu, hb, hr⟩
        · split <;> exact ⟨hu, hb, hr⟩
        · split <;> exact ⟨hu, hb, hr⟩
    | fwdR =>
        simp only [step]; split
        · exact ⟨hu, hb, hr⟩
        · rw [if_neg (by simp [hu])]; exact ⟨hu, hb, hr⟩
    | fwdI =>
        simp only [step]; split
        · exact ⟨hu, hb, hr⟩
        · rw [if_neg (by simp [hu])]; exact ⟨hu, hb, hr⟩
    | lose => exact ⟨rfl, hb, hr⟩
  have runR : ∀ (bs : List Act) (s : St) (a : Int), s.up = false → s.boxR = [] → s.r = .sent a →
      (run c s bs).r = .sent a := by
    intro bs
    induction bs with
    | nil => intro s a _ _ h; exact h
    | cons x bs ih =>
        intro s a hu hb hr
        obtain ⟨h1, h2, h3⟩ := stepUpR s x a hu hb hr
        exact ih _ a h1 h2 h3
  refine ⟨?_, ?_, ?_⟩
  · intro hi hb; rw [runI bs s hup hb (.inl hi), hi]
  · intro p hi hb; rw [runI bs s hup hb (.inr ⟨p, hi⟩), hi]
  · intro a hr hb; exact runR bs s a hup hb hr

/-- A configuration for the examples. -/
def cfg0 : Cfg := { payR := 3, payI := 5, clkR := fun t => t + 100, clkI := fun t => t + 100 }

/-- One end runs and the other never does. -/
theorem C133_counterexample_one_runs :
    ∃ as, (∃ a p, (run cfg0 (St.init 0) as).r = .ran a p) ∧
      ∀ bs, ¬ ∃ a p, (run cfg0 (St.init 0) (as ++ bs)).i = .ran a p := by
  refine ⟨[.stepR true, .stepR true, .tick 4, .fwdI, .stepI true, .stepI true, .tick 4, .fwdR,
    .stepR true, .stepR true, .stepR true, .stepR true, .stepR true, .lose, .tick 8, .stepR true],
    ⟨16, 5, by decide⟩, ?_⟩
  intro bs
  rw [run_append]
  rw [(C133_counterexample_waits_for_ever cfg0 _ bs (by decide)).2.1 3 (by decide) (by decide)]
  simp

example : bothRan (run cfg0 (St.init 0) (promptRun 4 4 4 ++ [.tick 4, .stepI true, .stepR true])) :=
  ⟨⟨16, 5, by decide⟩, ⟨16, 3, by decide⟩⟩

example : Steady cfg0 100 100 := ⟨fun _ => rfl, fun _ => rfl⟩

/-- The hypotheses of `C133_counterexample_clock_back` are met: the clock goes back by 7. -/
example : (run { payR := 3, payI := 5, clkR := fun t => if t < 6 then t else t - 13, clkI := fun t => t }
      (St.init 0) [.stepR true, .stepR true, .fwdI, .stepI true, .stepI true, .tick 6, .fwdR,
      .stepR true]).r = .acked 0 5 := by
  decide

end Verif.SyncStart

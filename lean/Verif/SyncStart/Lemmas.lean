import Verif.SyncStart.Model
/-!
# Invariants of the synchronised start
-/
namespace Verif.SyncStart

theorem run_cons (c : Cfg) (s : St) (a : Act) (as : List Act) :
    run c s (a :: as) = run c (step c s a) as := rfl

theorem run_append (c : Cfg) (s : St) (as bs : List Act) :
    run c s (as ++ bs) = run c (run c s as) bs := by
  simp [run, List.foldl_append]

/-- What the receiver has sent and taken at a position. -/
def okR (c : Cfg) (r : RPc) (sent taken : List Msg) : Prop :=
  match r with
  | .start => sent = [] ∧ taken = []
  | .timed _ => sent = [] ∧ taken = []
  | .sent _ => sent = [.syn c.payR] ∧ taken = []
  | .acked _ p => p = c.payI ∧ sent = [.syn c.payR] ∧ taken = [.synAck c.payI]
  | .measured _ p => p = c.payI ∧ sent = [.syn c.payR] ∧ taken = [.synAck c.payI]
  | .planned _ _ p => p = c.payI ∧ sent = [.syn c.payR] ∧ taken = [.synAck c.payI]
  | .confirmed _ p => p = c.payI ∧ (∃ ts, sent = [.syn c.payR, .ack ts]) ∧
      taken = [.synAck c.payI]
  | .asleep _ p => p = c.payI ∧ (∃ ts, sent = [.syn c.payR, .ack ts]) ∧
      taken = [.synAck c.payI]
  | .ran _ p => p = c.payI ∧ (∃ ts, sent = [.syn c.payR, .ack ts]) ∧
      taken = [.synAck c.payI]
  | .failed => (sent = [] ∧ taken = []) ∨ (sent = [.syn c.payR] ∧ taken = [.synAck c.payI])

def okI (c : Cfg) (i : IPc) (sent taken : List Msg) : Prop :=
  match i with
  | .start => sent = [] ∧ taken = []
  | .gotSyn p => p = c.payR ∧ sent = [] ∧ taken = [.syn c.payR]
  | .sent p => p = c.payR ∧ sent = [.synAck c.payI] ∧ taken = [.syn c.payR]
  | .gotAck ts p => p = c.payR ∧ sent = [.synAck c.payI] ∧ taken = [.syn c.payR, .ack ts]
  | .early ts p => p = c.payR ∧ sent = [.synAck c.payI] ∧ taken = [.syn c.payR, .ack ts]
  | .slept _ p => p = c.payR ∧ sent = [.synAck c.payI] ∧ ∃ ts, taken = [.syn c.payR, .ack ts]
  | .asleep _ p => p = c.payR ∧ sent = [.synAck c.payI] ∧ ∃ ts, taken = [.syn c.payR, .ack ts]
  | .ready p => p = c.payR ∧ sent = [.synAck c.payI] ∧ ∃ ts, taken = [.syn c.payR, .ack ts]
  | .ran _ p => p = c.payR ∧ sent = [.synAck c.payI] ∧ ∃ ts, taken = [.syn c.payR, .ack ts]
  | .failed => sent = [] ∧ taken = [.syn c.payR]

structure Inv (c : Cfg) (s : St) : Prop where
  r : okR c s.r s.sentR s.takenR
  i : okI c s.i s.sentI s.takenI
  toI : ∃ lost, s.takenI ++ s.boxI ++ s.netI ++ lost = s.sentR ∧ (s.up = true → lost = [])
  toR : ∃ lost, s.takenR ++ s.boxR ++ s.netR ++ lost = s.sentI ∧ (s.up = true → lost = [])
  down : s.up = false → s.netI = [] ∧ s.netR = []

theorem inv_init (c : Cfg) (t : Int) : Inv c (St.init t) := by
  refine ⟨?_, ?_, ⟨[], ?_⟩, ⟨[], ?_⟩, ?_⟩ <;> simp [St.init, okR, okI]

/-- The receiver sends only what fits. -/
theorem sentR_shape {c : Cfg} {s : St} (h : Inv c s) :
    s.sentR = [] ∨ s.sentR = [.syn c.payR] ∨ ∃ ts, s.sentR = [.syn c.payR, .ack ts] := by
  have h1 := h.r
  cases hr : s.r <;> rw [hr] at h1 <;> simp only [okR] at h1 <;> grind

theorem sentI_shape {c : Cfg} {s : St} (h : Inv c s) :
    s.sentI = [] ∨ s.sentI = [.synAck c.payI] := by
  have h1 := h.i
  cases hr : s.i <;> rw [hr] at h1 <;> simp only [okI] at h1 <;> grind

theorem inv_sendR {c : Cfg} {s : St} (h : Inv c s) (seen : Bool) (m : Msg) (next : RPc)
    (h1 : okR c next (s.sentR ++ [m]) s.takenR) (h2 : okR c .failed s.sentR s.takenR) :
    Inv c (sendR s seen m next) := by
  obtain ⟨hr, hi, ⟨l, hl, hu⟩, htr, hd⟩ := h
  unfold sendR
  split
  · rename_i hup
    have hl0 := hu hup
    subst hl0
    refine ⟨h1, hi, ⟨[], ?_, fun _ => rfl⟩, htr, ?_⟩
    · simp only [List.append_nil] at hl ⊢
      rw [← hl]; simp [List.append_assoc]
    · intro hf; simp_all
  · rename_i hup
    split
    · exact ⟨h2, hi, ⟨l, hl, hu⟩, htr, hd⟩
    · refine ⟨h1, hi, ⟨l ++ [m], ?_, fun h => absurd h hup⟩, htr, hd⟩
      simp only
      rw [← hl]; simp [List.append_assoc]

theorem inv_sendI {c : Cfg} {s : St} (h : Inv c s) (seen : Bool) (m : Msg) (next : IPc)
    (h1 : okI c next (s.sentI ++ [m]) s.takenI) (h2 : okI c .failed s.sentI s.takenI) :
    Inv c (sendI s seen m next) := by
  obtain ⟨hr, hi, htr, ⟨l, hl, hu⟩, hd⟩ := h
  unfold sendI
  split
  · rename_i hup
    have hl0 := hu hup
    subst hl0
    refine ⟨hr, h1, htr, ⟨[], ?_, fun _ => rfl⟩, ?_⟩
    · simp only [List.append_nil] at hl ⊢
      rw [← hl]; simp [List.append_assoc]
    · intro hf; simp_all
  · rename_i hup
    split
    · exact ⟨hr, h2, htr, ⟨l, hl, hu⟩, hd⟩
    · refine ⟨hr, h1, htr, ⟨l ++ [m], ?_, fun h => absurd h hup⟩, hd⟩
      simp only
      rw [← hl]; simp [List.append_assoc]

theorem inv_stepR {c : Cfg} {s : St} (h : Inv c s) (seen : Bool) : Inv c (stepR c s seen) := by
  have hr := h.r
  unfold stepR
  split <;> rename_i hpc <;> rw [hpc] at hr <;> simp only [okR] at hr
  · exact ⟨hr, h.i, h.toI, h.toR, h.down⟩
  · refine inv_sendR h seen _ _ ?_ ?_ <;> simp [okR, hr]
  · unfold takeR
    split
    · exact h
    · rename_i m q hq
      obtain ⟨l, hl, hu⟩ := h.toR
      have hm : m = .synAck c.payI ∧ q = [] := by
        rcases sentI_shape h with h1 | h1 <;> rw [h1, hq, hr.2] at hl <;> simp at hl
        exact ⟨hl.1, hl.2.1⟩
      obtain ⟨rfl, rfl⟩ := hm
      refine ⟨?_, h.i, h.toI, ⟨l, ?_, hu⟩, h.down⟩
      · simp [okR, hr]
      · simp only
        rw [← hl, hq]; simp
  · exact ⟨hr, h.i, h.toI, h.toR, h.down⟩
  · exact ⟨hr, h.i, h.toI, h.toR, h.down⟩
  · refine inv_sendR h seen _ _ ?_ ?_ <;> simp [okR, hr]
  · exact ⟨hr, h.i, h.toI, h.toR, h.down⟩
  · split
    · exact ⟨hr, h.i, h.toI, h.toR, h.down⟩
    · exact h
  · exact h
  · exact h

theorem inv_stepI {c : Cfg} {s : St} (h : Inv c s) (seen : Bool) : Inv c (stepI c s seen) := by
  have hi := h.i
  unfold stepI
  split <;> rename_i hpc <;> rw [hpc] at hi <;> simp only [okI] at hi
  · unfold takeI
    split
    · exact h
    · rename_i m q hq
      obtain ⟨l, hl, hu⟩ := h.toI
      have hm : m = .syn c.payR := by
        rcases sentR_shape h with h1 | h1 | ⟨ts, h1⟩ <;> rw [h1, hq, hi.2] at hl <;> simp at hl
        · exact hl.1
        · exact hl.1
      subst hm
      refine ⟨h.r, ?_, ⟨l, ?_, hu⟩, h.toR, h.down⟩
      · simp [okI, hi]
      · simp only
        rw [← hl, hq]; simp
  · refine inv_sendI h seen _ _ ?_ ?_ <;> simp [okI, hi]
  · unfold takeI
    split
    · exact h
    · rename_i m q hq
      obtain ⟨l, hl, hu⟩ := h.toI
      have hm : ∃ ts, m = .ack ts := by
        rcases sentR_shape h with h1 | h1 | ⟨ts, h1⟩ <;> rw [h1, hq, hi.2.2] at hl <;> simp at hl
        exact ⟨ts, hl.1⟩
      obtain ⟨ts, rfl⟩ := hm
      refine ⟨h.r, ?_, ⟨l, ?_, hu⟩, h.toR, h.down⟩
      · simp [okI, hi]
      · simp only
        rw [← hl, hq]; simp
  · split
    · exact ⟨h.r, hi, h.toI, h.toR, h.down⟩
    · exact ⟨h.r, ⟨hi.1, hi.2.1, _, hi.2.2⟩, h.toI, h.toR, h.down⟩
  · exact ⟨h.r, ⟨hi.1, hi.2.1, _, hi.2.2⟩, h.toI, h.toR, h.down⟩
  · exact ⟨h.r, hi, h.toI, h.toR, h.down⟩
  · split
    · exact ⟨h.r, hi, h.toI, h.toR, h.down⟩
    · exact h
  · exact ⟨h.r, hi, h.toI, h.toR, h.down⟩
  · exact h
  · exact h

theorem inv_step {c : Cfg} {s : St} (h : Inv c s) (a : Act) : Inv c (step c s a) := by
  cases a with
  | tick d => exact ⟨h.r, h.i, h.toI, h.toR, h.down⟩
  | stepR seen => exact inv_stepR h seen
  | stepI seen => exact inv_stepI h seen
  | fwdR =>
      simp only [step]
      split
      · exact h
      · rename_i m q hq
        split
        · rename_i hup
          obtain ⟨l, hl, hu⟩ := h.toR
          refine ⟨h.r, h.i, h.toI, ⟨l, ?_, hu⟩, ?_⟩
          · simp only
            rw [← hl, hq]; simp
          · intro hf; simp_all
        · exact h
  | fwdI =>
      simp only [step]
      split
      · exact h
      · rename_i m q hq
        split
        · rename_i hup
          obtain ⟨l, hl, hu⟩ := h.toI
          refine ⟨h.r, h.i, ⟨l, ?_, hu⟩, h.toR, ?_⟩
          · simp only
            rw [← hl, hq]; simp
          · intro hf; simp_all
        · exact h
  | lose =>
      obtain ⟨l, hl, hu⟩ := h.toI
      obtain ⟨k, hk, hv⟩ := h.toR
      refine ⟨h.r, h.i, ⟨s.netI ++ l, ?_, ?_⟩, ⟨s.netR ++ k, ?_, ?_⟩, fun _ => ⟨rfl, rfl⟩⟩
      · simp only [step]; rw [← hl]; simp
      · simp [step]
      · simp only [step]; rw [← hk]; simp
      · simp [step]

theorem inv_run {c : Cfg} (as : List Act) : ∀ {s : St}, Inv c s → Inv c (run c s as) := by
  induction as with
  | nil => intro s h; exact h
  | cons a as ih => intro s h; exact ih (inv_step h a)

theorem t_stepR (c : Cfg) (s : St) (seen : Bool) : (stepR c s seen).t = s.t := by
  unfold stepR
  split <;> try rfl
  · unfold sendR; repeat' split <;> try rfl
  · unfold takeR; split <;> rfl
  · unfold sendR; repeat' split <;> try rfl
  · split <;> rfl

theorem t_stepI (c : Cfg) (s : St) (seen : Bool) : (stepI c s seen).t = s.t := by
  unfold stepI
  split <;> try rfl
  · unfold takeI; split <;> rfl
  · unfold sendI; repeat' split <;> try rfl
  · unfold takeI; split <;> rfl
  · split <;> rfl
  · split <;> rfl

theorem t_step (c : Cfg) (s : St) (a : Act) : s.t ≤ (step c s a).t := by
  cases a with
  | tick d => simp only [step]; omega
  | stepR seen => simp only [step, t_stepR]; omega
  | stepI seen => simp only [step, t_stepI]; omega
  | fwdR =>
      simp only [step]; split
      · exact Int.le_refl _
      · split <;> exact Int.le_refl _
  | fwdI =>
      simp only [step]; split
      · exact Int.le_refl _
      · split <;> exact Int.le_refl _
  | lose => exact Int.le_refl _

theorem t_run (c : Cfg) (as : List Act) : ∀ s : St, s.t ≤ (run c s as).t := by
  induction as with
  | nil => intro s; exact Int.le_refl _
  | cons a as ih => intro s; exact Int.le_trans (t_step c s a) (ih _)

end Verif.SyncStart

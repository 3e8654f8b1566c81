import Verif.NetTryJoin.Lemmas

/-! Property C41: the network try-join. -/
namespace Verif.NetTryJoin

/-- **C41 is false in its second half.** The computation at the preferred side fails, both sides finish, and the other side
returns a successful value. -/
theorem C41_counterexample_success_despite_failure :
    let s := after [.completeN (some 4), .completeP none, .deliverP, .deliverN, .deliverN]
    s.p.ret = some none ∧ s.p.finished = some (some none) ∧ s.n.finished = some (some (some 4)) := by decide

/-- It also happens the other way round. -/
theorem C41_counterexample_success_despite_failure' :
    let s := after [.completeP (some 4), .completeN none, .deliverP, .deliverN, .deliverN]
    s.n.ret = some none ∧ s.n.finished = some (some none) ∧ s.p.finished = some (some (some 4)) := by decide

/-- **C41 (partial).** In every execution: a returned value is the outcome of the side's own computation; if neither
computation has failed, a side that has returned has returned success, and so has the other computation ended
successfully; if both sides returned success, both computations succeeded. Missing: a side may return success although
the other side's computation failed. -/
theorem C41_joint_success_partial (ops : List Op) :
    let s := after ops
    (∀ r, s.p.finished = some r → r = s.p.ret) ∧ (∀ r, s.n.finished = some r → r = s.n.ret) ∧
    (s.p.ret ≠ some none → s.n.ret ≠ some none → s.p.finished ≠ none ∨ s.n.finished ≠ none →
      (∃ v, s.p.ret = some (some v)) ∧ ∃ v, s.n.ret = some (some v)) ∧
    (∀ v w, s.p.finished = some (some (some v)) → s.n.finished = some (some (some w)) →
      s.p.ret = some (some v) ∧ s.n.ret = some (some w)) := by
  intro s
  have h := inv_after ops
  have nfin : ∀ r', s.n.finished = some r' → ∃ r, s.p.finished = some r := by
    intro r' hr'
    cases hp : s.p.finished with
    | some r => exact ⟨r, rfl⟩
    | none => have := (h.running hp).1; rw [hr'] at this; cases this
  have own : ∀ r, s.n.finished = some r → r = s.n.ret := by
    intro r' hr'
    obtain ⟨r, hr⟩ := nfin r' hr'
    have dec : ∀ f, Decided s f → r' = s.n.ret := by
      rintro f (⟨h1, -⟩ | h1)
      · rw [hr'] at h1; cases h1
      · rw [hr'] at h1; exact Option.some.inj h1
    rcases (h.decided r hr).2 with ⟨-, -, h3⟩ | ⟨-, h3⟩ <;> exact dec _ h3
  refine ⟨fun r hr => (h.decided r hr).1, own, ?_, ?_⟩
  · intro h1 h2 hf
    obtain ⟨r, hr⟩ : ∃ r, s.p.finished = some r := by
      rcases hf with hf | hf
      · exact Option.ne_none_iff_exists'.1 hf
      · obtain ⟨r', hr'⟩ := Option.ne_none_iff_exists'.1 hf; exact nfin r' hr'
    rcases (h.decided r hr).2 with ⟨h3, h4, -⟩ | ⟨h3 | h3, -⟩
    · exact ⟨h3, h4⟩
    · exact absurd h3 h1
    · exact absurd h3 h2
  · intro v w hp hn
    exact ⟨((h.decided _ hp).1).symm, (own _ hn).symm⟩

/-- A schedule of deliveries each of which finds a message and a running endpoint. -/
def Effective (s : Sys) : List Op → Prop
  | [] => True
  | .deliverP :: ds => s.p.finished = none ∧ s.toP ≠ [] ∧ Effective (step s .deliverP) ds
  | .deliverN :: ds => s.n.finished = none ∧ s.toN ≠ [] ∧ Effective (step s .deliverN) ds
  | _ :: _ => False

def idle (l : List Msg) : Nat := (l.filter (fun m => !(m.success || m.failure))).length

/-- Remaining work once both computations are over. -/
def work (s : Sys) : Nat :=
  if s.p.finished = none then 2 * idle s.toP + s.toP.length + 2 * s.toN.length + 2
  else if s.n.finished = none then s.toN.length else 0

theorem work_decreases (s : Sys) (h : Inv s) (hp : s.p.ret ≠ none) (hn : s.n.ret ≠ none) (d : Op) (ds : List Op)
    (he : Effective s (d :: ds)) :
    work (step s d) < work s ∧ (step s d).p.ret ≠ none ∧ (step s d).n.ret ≠ none ∧ Effective (step s d) ds := by
  have hinfo : ∀ x : Node, x.ret ≠ none → ((Msg.ping (info x)).success || (Msg.ping (info x)).failure) = true := by
    intro x hx
    unfold info
    cases hr : x.ret with
    | none => exact absurd hr hx
    | some r => cases r <;> rfl
  cases d with
  | completeP r => exact he.elim
  | completeN r => exact he.elim
  | deliverP =>
    obtain ⟨hf, hne, he⟩ := he
    cases hto : s.toP with
    | nil => exact absurd hto hne
    | cons m rest =>
      have hstep : step s .deliverP = { s with p := (recvP s.p m).1, toP := rest, toN := s.toN ++ [(recvP s.p m).2] } := by
        simp only [step, hto, hf, if_true]
      have hret : (recvP s.p m).1.ret = s.p.ret := by
        unfold recvP; split
        · rfl
        · split <;> rfl
      refine ⟨?_, by rw [hstep]; simpa only [hret] using hp, by rw [hstep]; exact hn, he⟩
      have hi : idle (m :: rest) = (if (m.success || m.failure) = true then 0 else 1) + idle rest := by
        unfold idle
        rw [List.filter_cons]
        by_cases hm : (m.success || m.failure) = true
        · simp [hm]
        · simp only [hm]; simp; omega
      rw [hstep]
      unfold work
      simp only [hf, if_true, hto, hi, List.length_append, List.length_cons, List.length_nil]
      unfold recvP
      by_cases hc1 : (m.failure || decide (s.p.loc = .error)) = true
      · rw [if_pos hc1]
        simp only [reduceCtorEq, if_false]
        split <;> omega
      · rw [if_neg hc1]
        by_cases hc2 : (m.success && decide (s.p.loc = .obtained)) = true
        · rw [if_pos hc2]
          simp only [reduceCtorEq, if_false]
          split <;> omega
        · rw [if_neg hc2]
          have hl : s.p.loc = .obtained := by
            rcases h.locP with ⟨-, hr⟩ | ⟨v, hl, -⟩ | ⟨hl, -⟩
            · exact absurd hr hp
            · exact hl
            · simp [hl] at hc1
          simp only [hl, decide_true, Bool.and_true, reduceCtorEq, decide_false, Bool.or_false] at hc1 hc2
          simp only [hf, if_true, hc1, hc2, Bool.or_self, Bool.false_eq_true, if_false]
          omega
  | deliverN =>
    obtain ⟨hf, hne, he⟩ := he
    cases hto : s.toN with
    | nil => exact absurd hto hne
    | cons m rest =>
      have hstep : step s .deliverN =
          { s with n := (recvN s.n m).1, toN := rest, toP := s.toP ++ (recvN s.n m).2.toList } := by
        simp only [step, hto, hf, if_true]
      have hret : (recvN s.n m).1.ret = s.n.ret := by unfold recvN; split <;> rfl
      refine ⟨?_, by rw [hstep]; exact hp, by rw [hstep]; simpa only [hret] using hn, he⟩
      rw [hstep]
      unfold work
      by_cases hpf : s.p.finished = none
      · have hfin := (h.running hpf).2.1 m (by rw [hto]; simp)
        have hr : recvN s.n m = (s.n, some (.ping (info s.n))) := by
          cases m <;> first | rfl | cases hfin
        have hidle : idle (s.toP ++ [.ping (info s.n)]) = idle s.toP := by
          unfold idle
          rw [List.filter_append, List.length_append, List.filter_cons]
          simp only [hinfo s.n hn, Bool.not_true, Bool.false_eq_true, if_false, List.filter_nil, List.length_nil]
          rfl
        simp only [hpf, if_true, hr, hto, Option.toList_some, hidle, List.length_append, List.length_nil,
          List.length_cons]
        omega
      · simp only [hpf, if_false, hf, if_true, hto, List.length_cons]
        split <;> omega

/-- **C41 (termination).** Once both computations are over, the number of deliveries is bounded and when nothing is left
to deliver both sides have returned. -/
theorem C41_terminates (ops : List Op) (hp : (after ops).p.ret ≠ none) (hn : (after ops).n.ret ≠ none) :
    ∃ bound, ∀ ds, Effective (after ops) ds → ds.length ≤ bound ∧
      ((∀ d, ¬ Effective (after (ops ++ ds)) (d :: [])) →
        (after (ops ++ ds)).p.finished ≠ none ∧ (after (ops ++ ds)).n.finished ≠ none) := by
  refine ⟨work (after ops), fun ds he => ?_⟩
  constructor
  · have h := inv_after ops
    generalize after ops = s at h hp hn he
    induction ds generalizing s with
    | nil => simp
    | cons d ds ih =>
      obtain ⟨h1, h2, h3, h4⟩ := work_decreases s h hp hn d ds he
      have := ih (step s d) (inv_step s d h) h2 h3 h4
      simp only [List.length_cons]; omega
  · have h := inv_after (ops ++ ds)
    have hret : (after (ops ++ ds)).p.ret ≠ none ∧ (after (ops ++ ds)).n.ret ≠ none := by
      have h0 := inv_after ops
      unfold after
      rw [List.foldl_append]
      change (List.foldl step (after ops) ds).p.ret ≠ none ∧ (List.foldl step (after ops) ds).n.ret ≠ none
      generalize after ops = s at h0 hp hn he
      clear h
      induction ds generalizing s with
      | nil => exact ⟨hp, hn⟩
      | cons d ds ih =>
        obtain ⟨h1, h2, h3, h4⟩ := work_decreases s h0 hp hn d ds he
        exact ih (step s d) (inv_step s d h0) h2 h3 h4
    intro hstuck
    have sP := hstuck .deliverP
    have sN := hstuck .deliverN
    simp only [Effective, and_true, not_and, not_not] at sP sN
    by_cases hpf : (after (ops ++ ds)).p.finished = none
    · obtain ⟨h1, h2, h3⟩ := h.running hpf
      rcases h3 with h3 | h3 | h3
      · exact absurd h3.1 hret.1
      · exact absurd (sP hpf) h3
      · exact absurd (sN h1) h3
    · refine ⟨hpf, fun hnf => ?_⟩
      have hempty := sN hnf
      obtain ⟨r, hr⟩ := Option.ne_none_iff_exists'.1 hpf
      have dec : ∀ f, ¬ Decided (after (ops ++ ds)) f := by
        rintro f (⟨-, l, h2, -⟩ | h1)
        · rw [hempty] at h2; simp at h2
        · rw [hnf] at h1; cases h1
      rcases (h.decided r hr).2 with ⟨-, -, h3⟩ | ⟨-, h3⟩ <;> exact dec _ h3

/-- Both succeed, both return success. -/
example : let s := after [.completeN (some 4), .deliverP, .completeP (some 3), .deliverN, .deliverN, .deliverP, .deliverN]
    s.p.ret ≠ some none ∧ s.n.ret ≠ some none ∧ s.p.finished = some (some (some 3)) ∧
    s.n.finished = some (some (some 4)) := by decide
/-- The hypotheses of the termination theorem are met while messages are on the way. -/
example : let s := after [.completeN (some 1), .deliverP, .completeP (some 2)]
    s.p.ret ≠ none ∧ s.n.ret ≠ none ∧ s.p.finished = none ∧ Effective s [.deliverN, .deliverN, .deliverP, .deliverN] := by
  refine ⟨by decide, by decide, by decide, ?_⟩
  simp only [Effective]; decide

end Verif.NetTryJoin

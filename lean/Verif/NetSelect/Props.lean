import Verif.NetSelect.Lemmas

/-! Property C40: the network select has one agreed winner, and it ends. -/
namespace Verif.NetSelect

/-- **C40.** In every execution: at most one side gets a result, it is the value of its own computation; once both sides
have returned, either the preferred side has its own value and the other is told that its peer succeeded, or the
other way round, or both report failure and both computations failed. -/
theorem C40_one_winner (ops : List Op) :
    let s := after ops
    (∀ r, s.p.finished = some r → ∀ v, r.1 = some v → s.p.ret = some (some v)) ∧
    (∀ r, s.n.finished = some r → ∀ v, r.1 = some v → s.n.ret = some (some v)) ∧
    (∀ r r', s.p.finished = some r → s.n.finished = some r' → r.1 = none ∨ r'.1 = none) ∧
    (∀ r r', s.p.finished = some r → s.n.finished = some r' →
      ((∃ v, r.1 = some v) ∧ r' = (none, true)) ∨ ((∃ v, r'.1 = some v) ∧ r = (none, true)) ∨
      (r = (none, false) ∧ r' = (none, false) ∧ s.p.ret = some none ∧ s.n.ret = some none)) := by
  intro s
  have h := inv_after ops
  have key : ∀ r, s.p.finished = some r → ∀ r', s.n.finished = some r' →
      (∃ v, s.p.ret = some (some v) ∧ r = (some v, false) ∧ r' = (none, true)) ∨
      (∃ v, s.n.ret = some (some v) ∧ r = (none, true) ∧ r' = (some v, false)) ∨
      (s.p.ret = some none ∧ s.n.ret = some none ∧ r = (none, false) ∧ r' = (none, false)) := by
    intro r hr r' hr'
    have dec : ∀ f x, Decided s f x → r' = x := by
      intro f x hd
      rcases hd with ⟨h1, -⟩ | h1
      · rw [hr'] at h1; cases h1
      · rw [hr'] at h1; exact Option.some.inj h1
    rcases h.decided r hr with ⟨v, h1, h2, h3⟩ | ⟨v, h1, h2, h3⟩ | ⟨h0, h1, h2, h3⟩
    · exact Or.inl ⟨v, h1, h2, dec _ _ h3⟩
    · exact Or.inr (Or.inl ⟨v, h1, h2, dec _ _ h3⟩)
    · exact Or.inr (Or.inr ⟨h0, h1, h2, dec _ _ h3⟩)
  have nfin : ∀ r', s.n.finished = some r' → ∃ r, s.p.finished = some r := by
    intro r' hr'
    cases hp : s.p.finished with
    | some r => exact ⟨r, rfl⟩
    | none => have := (h.running hp).1; rw [hr'] at this; cases this
  refine ⟨?_, ?_, ?_, ?_⟩
  · intro r hr v hv
    rcases h.decided r hr with ⟨w, h1, rfl, -⟩ | ⟨w, h1, rfl, -⟩ | ⟨h0, h1, rfl, -⟩
    · cases hv; exact h1
    · cases hv
    · cases hv
  · intro r' hr' v hv
    obtain ⟨r, hr⟩ := nfin r' hr'
    rcases key r hr r' hr' with ⟨w, -, -, rfl⟩ | ⟨w, h1, -, rfl⟩ | ⟨-, -, -, rfl⟩
    · cases hv
    · cases hv; exact h1
    · cases hv
  · intro r r' hr hr'
    rcases key r hr r' hr' with ⟨w, -, -, rfl⟩ | ⟨w, h1, rfl, -⟩ | ⟨-, -, rfl, -⟩ <;> simp
  · intro r r' hr hr'
    rcases key r hr r' hr' with ⟨w, -, rfl, rfl⟩ | ⟨w, h1, rfl, rfl⟩ | ⟨h0, h1, rfl, rfl⟩
    · exact Or.inl ⟨⟨w, rfl⟩, rfl⟩
    · exact Or.inr (Or.inl ⟨⟨w, rfl⟩, rfl⟩)
    · exact Or.inr (Or.inr ⟨rfl, rfl, h0, h1⟩)

/-- A side reports global failure (no result, other side did not succeed) only if both computations failed, whether or
not the other side has returned yet. -/
theorem C40_global_failure (ops : List Op)
    (hf : (after ops).p.finished = some (none, false) ∨ (after ops).n.finished = some (none, false)) :
    (after ops).p.ret = some none ∧ (after ops).n.ret = some none := by
  have h := inv_after ops
  obtain ⟨r, hr⟩ : ∃ r, (after ops).p.finished = some r := by
    cases hp : (after ops).p.finished with
    | some r => exact ⟨r, rfl⟩
    | none =>
      rcases hf with hf | hf
      · rw [hp] at hf; cases hf
      · have := (h.running hp).1; rw [hf] at this; cases this
  have dec : ∀ f x, Decided (after ops) f x → (after ops).n.finished = some (none, false) → x = (none, false) := by
    intro f x hd hn
    rcases hd with ⟨h1, -⟩ | h1
    · rw [hn] at h1; cases h1
    · rw [hn] at h1; exact (Option.some.inj h1).symm
  rcases h.decided r hr with ⟨v, h1, rfl, h3⟩ | ⟨v, h1, rfl, h3⟩ | ⟨h0, h1, rfl, h3⟩
  · rcases hf with hf | hf
    · rw [hr] at hf; cases hf
    · cases dec _ _ h3 hf
  · rcases hf with hf | hf
    · rw [hr] at hf; cases hf
    · cases dec _ _ h3 hf
  · exact ⟨h0, h1⟩

/-- A schedule of deliveries each of which finds a message and a running endpoint. -/
def Effective (s : Sys) : List Op → Prop
  | [] => True
  | .deliverP :: ds => s.p.finished = none ∧ s.toP ≠ [] ∧ Effective (step s .deliverP) ds
  | .deliverN :: ds => s.n.finished = none ∧ s.toN ≠ [] ∧ Effective (step s .deliverN) ds
  | _ :: _ => False

/-- Number of messages from which the preferred side cannot conclude anything. -/
def idle (l : List Msg) : Nat := (l.filter (fun m => !(m.success || m.failure))).length

/-- Remaining work once both computations are over. -/
def work (s : Sys) : Nat :=
  if s.p.finished = none then 2 * idle s.toP + s.toP.length + 2 * s.toN.length + 2
  else if s.n.finished = none then s.toN.length else 0

theorem work_decreases (s : Sys) (h : Inv s) (hp : s.p.ret ≠ none) (hn : s.n.ret ≠ none) (d : Op) (ds : List Op)
    (he : Effective s (d :: ds)) :
    work (step s d) < work s ∧ (step s d).p.ret ≠ none ∧ (step s d).n.ret ≠ none ∧ Effective (step s d) ds := by
  have hinfo : ∀ x : Node, x.ret ≠ none → ((Msg.ping (info x)).success || (Msg.ping (info x)).failure) = true := by
    intro x hx
    unfold info
    cases hr : x.ret with
    | none => exact absurd hr hx
    | some r => cases r <;> rfl
  cases d with
  | completeP r => exact he.elim
  | completeN r => exact he.elim
  | deliverP =>
    obtain ⟨hf, hne, he⟩ := he
    cases hto : s.toP with
    | nil => exact absurd hto hne
    | cons m rest =>
      have hstep : step s .deliverP = { s with p := (recvP s.p m).1, toP := rest, toN := s.toN ++ [(recvP s.p m).2] } := by
        simp only [step, hto, hf, if_true]
      have hret : (recvP s.p m).1.ret = s.p.ret := by
        unfold recvP; split
        · rfl
        · split
          · rfl
          · split <;> rfl
        · split <;> rfl
      refine ⟨?_, by rw [hstep]; simpa only [hret] using hp, by rw [hstep]; exact hn, he⟩
      have hi : idle (m :: rest) = (if (m.success || m.failure) = true then 0 else 1) + idle rest := by
        unfold idle
        rw [List.filter_cons]
        by_cases hm : (m.success || m.failure) = true
        · simp [hm]
        · simp only [hm]; simp; omega
      rw [hstep]
      unfold work
      simp only [hf, if_true, hto, hi, List.length_append, List.length_cons, List.length_nil]
      rcases h.locP with ⟨hl, hr⟩ | ⟨v, hl, hr⟩ | ⟨hl, hr⟩
      · exact absurd hr hp
      · simp only [recvP, hl, reduceCtorEq, if_false]
        split <;> omega
      · by_cases hm : m.success = true
        · simp only [recvP, hl, hm, if_true, reduceCtorEq, if_false]
          split <;> omega
        · by_cases hm2 : m.failure = true
          · simp only [recvP, hl, hm, hm2, if_true, reduceCtorEq, if_false, Bool.false_eq_true]
            split <;> omega
          · simp only [recvP, hl, hm, hm2, if_true, if_false, Bool.false_eq_true, hf, Bool.or_self]
            omega
  | deliverN =>
    obtain ⟨hf, hne, he⟩ := he
    cases hto : s.toN with
    | nil => exact absurd hto hne
    | cons m rest =>
      have hstep : step s .deliverN =
          { s with n := (recvN s.n m).1, toN := rest, toP := s.toP ++ (recvN s.n m).2.toList } := by
        simp only [step, hto, hf, if_true]
      have hret : (recvN s.n m).1.ret = s.n.ret := by unfold recvN; split <;> rfl
      refine ⟨?_, by rw [hstep]; exact hp, by rw [hstep]; simpa only [hret] using hn, he⟩
      rw [hstep]
      unfold work
      by_cases hpf : s.p.finished = none
      · have hfin := (h.running hpf).2.1 m (by rw [hto]; simp)
        have hr : recvN s.n m = (s.n, some (.ping (info s.n))) := by
          cases m <;> first | rfl | cases hfin
        have hidle : idle (s.toP ++ [.ping (info s.n)]) = idle s.toP := by
          unfold idle
          rw [List.filter_append, List.length_append, List.filter_cons]
          simp only [hinfo s.n hn, Bool.not_true, Bool.false_eq_true, if_false, List.filter_nil, List.length_nil]
          rfl
        simp only [hpf, if_true, hr, hto, Option.toList_some, hidle, List.length_append, List.length_nil,
          List.length_cons]
        omega
      · simp only [hpf, if_false, hf, if_true, hto, List.length_cons]
        split <;> omega

/-- **C40 (termination).** Once both computations are over, message delivery cannot go on for ever: from every reachable
state there is a bound on the number of deliveries, and when nothing is left to deliver both sides have returned. -/
theorem C40_terminates (ops : List Op) (hp : (after ops).p.ret ≠ none) (hn : (after ops).n.ret ≠ none) :
    ∃ bound, ∀ ds, Effective (after ops) ds → ds.length ≤ bound ∧
      ((∀ d, ¬ Effective (after (ops ++ ds)) (d :: [])) →
        (after (ops ++ ds)).p.finished ≠ none ∧ (after (ops ++ ds)).n.finished ≠ none) := by
  refine ⟨work (after ops), fun ds he => ?_⟩
  constructor
  · have h := inv_after ops
    generalize after ops = s at h hp hn he
    induction ds generalizing s with
    | nil => simp
    | cons d ds ih =>
      obtain ⟨h1, h2, h3, h4⟩ := work_decreases s h hp hn d ds he
      have := ih (step s d) (inv_step s d h) h2 h3 h4
      simp only [List.length_cons]; omega
  · have h := inv_after (ops ++ ds)
    have hret : (after (ops ++ ds)).p.ret ≠ none ∧ (after (ops ++ ds)).n.ret ≠ none := by
      have h0 := inv_after ops
      unfold after
      rw [List.foldl_append]
      change (List.foldl step (after ops) ds).p.ret ≠ none ∧ (List.foldl step (after ops) ds).n.ret ≠ none
      generalize after ops = s at h0 hp hn he
      clear h
      induction ds generalizing s with
      | nil => exact ⟨hp, hn⟩
      | cons d ds ih =>
        obtain ⟨h1, h2, h3, h4⟩ := work_decreases s h0 hp hn d ds he
        exact ih (step s d) (inv_step s d h0) h2 h3 h4
    intro hstuck
    have sP := hstuck .deliverP
    have sN := hstuck .deliverN
    simp only [Effective, and_true, not_and, not_not] at sP sN
    by_cases hpf : (after (ops ++ ds)).p.finished = none
    · obtain ⟨h1, h2, h3⟩ := h.running hpf
      rcases h3 with h3 | h3 | h3
      · exact absurd h3.1 hret.1
      · exact absurd (sP hpf) h3
      · exact absurd (sN h1) h3
    · refine ⟨hpf, fun hnf => ?_⟩
      have hempty := sN hnf
      obtain ⟨r, hr⟩ := Option.ne_none_iff_exists'.1 hpf
      have dec : ∀ f x, ¬ Decided (after (ops ++ ds)) f x := by
        rintro f x (⟨-, l, h2, -⟩ | h1)
        · rw [hempty] at h2; simp at h2
        · rw [hnf] at h1; cases h1
      rcases h.decided r hr with ⟨v, -, -, h3⟩ | ⟨v, -, -, h3⟩ | ⟨-, -, -, h3⟩ <;> exact dec _ _ h3

/-- A race in which the other side's success is preferred because the preferred side fails late. -/
example : let s := after [.completeN (some 4), .completeP none, .deliverN, .deliverP, .deliverN, .deliverN]
    s.p.finished = some (none, true) ∧ s.n.finished = some (some 4, false) := by decide
/-- Both succeed: the preferred side wins. -/
example : let s := after [.completeN (some 4), .completeP (some 3), .deliverP, .deliverN, .deliverN]
    s.p.finished = some (some 3, false) ∧ s.n.finished = some (none, true) := by decide
/-- Both fail. -/
example : let s := after [.completeN none, .completeP none, .deliverP, .deliverN, .deliverN]
    s.p.finished = some (none, false) ∧ s.n.finished = some (none, false) := by decide
/-- The hypotheses of the termination theorem are met while messages are on the way. -/
example : let s := after [.completeN none, .deliverP, .completeP none]
    s.p.ret ≠ none ∧ s.n.ret ≠ none ∧ s.p.finished = none ∧ Effective s [.deliverN, .deliverN, .deliverP, .deliverN] := by
  refine ⟨by decide, by decide, by decide, ?_⟩
  simp only [Effective]; decide

end Verif.NetSelect

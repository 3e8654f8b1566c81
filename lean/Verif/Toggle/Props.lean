import Verif.Toggle.Lemmas

/-! Property C10 of the re-key toggle. -/
namespace Verif.Toggle

/-- **C10 (exact answer).** In every interleaving, an attempt to raise the toggle is told "you raised it" exactly
when no earlier attempt by any task is still in force; otherwise it is told "already raised". -/
theorem C10_answer_exact (ops : List (Nat × Op)) (task : Nat) :
    ((run init (ops ++ [(task, .toggleOn)])).2.getLast? =
        some (task, Op.toggleOn, some ToggleState.justToggled) ↔ ¬ Raised (run init ops).2) ∧
    ((run init (ops ++ [(task, .toggleOn)])).2.getLast? =
        some (task, Op.toggleOn, some ToggleState.alreadyToggled) ↔ Raised (run init ops).2) := by
  rw [← inner_run, run_append]
  simp only [run, step, fetchNand]
  cases (run init ops).1.inner <;> simp

/-- The two questions about the toggle answer exactly whether it is raised. -/
theorem C10_questions_exact (ops : List (Nat × Op)) (task : Nat) (op : Op)
    (hop : op = .state ∨ op = .resetAndGetPrevious) :
    ((run init (ops ++ [(task, op)])).2.getLast? =
        some (task, op, some ToggleState.alreadyToggled) ↔ Raised (run init ops).2) ∧
    ((run init (ops ++ [(task, op)])).2.getLast? =
        some (task, op, some ToggleState.untoggled) ↔ ¬ Raised (run init ops).2) := by
  rw [← inner_run, run_append]
  rcases hop with rfl | rfl <;> simp only [run, step, fetchAnd] <;>
    cases (run init ops).1.inner <;> simp

theorem run_prefix {ops : List (Nat × Op)} {a : List Entry} {e : Entry} {b : List Entry}
    {s : State} (h : (run s ops).2 = a ++ e :: b) :
    ∃ o₁ o₂, ops = o₁ ++ (e.1, e.2.1) :: o₂ ∧ (run s o₁).2 = a ∧
      (step (run s o₁).1 e.2.1).2 = e.2.2 := by
  induction a generalizing s ops with
  | nil =>
    cases ops with
    | nil => simp [run] at h
    | cons x ops =>
      obtain ⟨t, op⟩ := x
      simp only [run, List.nil_append, List.cons.injEq] at h
      obtain ⟨rfl, -⟩ := h
      exact ⟨[], ops, rfl, rfl, rfl⟩
  | cons y a ih =>
    cases ops with
    | nil => simp [run] at h
    | cons x ops =>
      obtain ⟨t, op⟩ := x
      simp only [run, List.cons_append, List.cons.injEq] at h
      obtain ⟨o₁, o₂, h1, h2, h3⟩ := ih h.2
      refine ⟨(t, op) :: o₁, o₂, by simp [h1], ?_, ?_⟩
      · simp [run, h2, h.1]
      · simpa [run] using h3

/-- **C10 (one winner).** In every interleaving, between two attempts (by any tasks) that are both told "you raised
it" something lowered the toggle. -/
theorem C10_one_winner (ops : List (Nat × Op)) (a b c : List Entry) (t₁ t₂ : Nat) (r₁ : Option ToggleState)
    (h : (run init ops).2 = a ++ (t₁, .toggleOn, r₁) :: b ++ (t₂, .toggleOn, some .justToggled) :: c) :
    ∃ b₁ e b₂, b = b₁ ++ e :: b₂ ∧ Lowers (a ++ (t₁, .toggleOn, r₁) :: b₁) e := by
  by_contra hc
  push Not at hc
  obtain ⟨o₁, o₂, -, h2, h3⟩ := run_prefix h
  have hr : Raised (run init o₁).2 := by
    rw [h2]
    exact ⟨a, t₁, r₁, b, rfl, hc⟩
  rw [← inner_run] at hr
  simp [step, fetchNand, hr] at h3

/-- **C10 (guard).** Whatever happened before, an armed guard going out of scope leaves the toggle lowered: the next
attempt to raise it succeeds. A guard that is not armed leaves it as it was. -/
theorem C10_guard_lowers (ops : List (Nat × Op)) (t t' g : Nat) :
    (guardStatus g none (run init ops).2 = some true →
      (run init (ops ++ [(t, .dropGuard g), (t', .toggleOn)])).2.getLast? =
        some (t', Op.toggleOn, some ToggleState.justToggled)) ∧
    (guardStatus g none (run init ops).2 ≠ some true →
      (Raised (run init (ops ++ [(t, .dropGuard g)])).2 ↔ Raised (run init ops).2)) := by
  constructor
  · intro hg
    rw [← guards_run] at hg
    rw [run_append]
    simp [run, step, hg, fetchNand]
  · intro hg
    rw [← guards_run] at hg
    rw [← inner_run, ← inner_run, run_append]
    simp [run, step, hg]

/-- Two tasks race; a guard armed by the winner lowers the toggle; the other task then wins. -/
example : (run init [(1, .newGuard 0), (1, .toggleOn), (2, .toggleOn), (1, .arm 0), (1, .dropGuard 0),
      (2, .toggleOn)]).2.map (fun e => e.2.2) =
    [none, some .justToggled, some .alreadyToggled, none, none, some .justToggled] := by decide
example : guardStatus 0 none (run init [(1, .newGuard 0), (1, .toggleOn), (1, .arm 0)]).2 = some true := by decide

end Verif.Toggle

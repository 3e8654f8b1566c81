import Verif.Toggle.Spec
import Mathlib.Data.List.Induction

namespace Verif.Toggle
open Verif

theorem run_append (s : State) (a b : List (Nat × Op)) :
    run s (a ++ b) = ((run (run s a).1 b).1, (run s a).2 ++ (run (run s a).1 b).2) := by
  induction a generalizing s with
  | nil => simp [run]
  | cons x a ih => obtain ⟨t, op⟩ := x; simp [run, ih]

theorem guardStatus_append (g : Nat) (st : Option Bool) (a b : List Entry) :
    guardStatus g st (a ++ b) = guardStatus g (guardStatus g st a) b := by
  induction a generalizing st with
  | nil => rfl
  | cons e a ih =>
    obtain ⟨t, op, r⟩ := e
    cases op <;> simp [guardStatus, ih]

theorem guards_step (s : State) (t : Nat) (op : Op) (g : Nat) :
    (step s op).1.guards.get? g = guardStatus g (s.guards.get? g) [(t, op, (step s op).2)] := by
  cases op with
  | toggleOn => rfl
  | resetAndGetPrevious => rfl
  | toggleOff => rfl
  | state => rfl
  | newGuard g' =>
    simp only [step, guardStatus, AMap.get?_insert]
    by_cases h : g' = g
    · simp [h]
    · have : ¬ g = g' := fun h' => h h'.symm
      simp [h, this]
  | arm g' =>
    simp only [step, guardStatus, AMap.contains]
    by_cases h : g' = g
    · subst h
      by_cases hg : (s.guards.get? g').isSome = true
      · obtain ⟨b, hb⟩ := Option.isSome_iff_exists.1 hg
        simp [hb]
      · simp only [Option.isSome_iff_ne_none, ne_eq, not_not] at hg
        simp [hg]
    · have : g ≠ g' := fun h' => h h'.symm
      by_cases hc : (s.guards.get? g').isSome = true <;> simp [h, hc, AMap.get?_insert_ne _ _ this]
  | disarm g' =>
    simp only [step, guardStatus, AMap.contains]
    by_cases h : g' = g
    · subst h
      by_cases hg : (s.guards.get? g').isSome = true
      · obtain ⟨b, hb⟩ := Option.isSome_iff_exists.1 hg
        simp [hb]
      · simp only [Option.isSome_iff_ne_none, ne_eq, not_not] at hg
        simp [hg]
    · have : g ≠ g' := fun h' => h h'.symm
      by_cases hc : (s.guards.get? g').isSome = true <;> simp [h, hc, AMap.get?_insert_ne _ _ this]
  | dropGuard g' =>
    simp only [step, guardStatus, AMap.get?_erase]
    by_cases h : g' = g
    · simp [h]
    · have : ¬ g = g' := fun h' => h h'.symm
      simp [h, this]

theorem guards_run (ops : List (Nat × Op)) (g : Nat) :
    (run init ops).1.guards.get? g = guardStatus g none (run init ops).2 := by
  induction ops using List.reverseRecOn with
  | nil => rfl
  | append_singleton ops x ih =>
    obtain ⟨t, op⟩ := x
    rw [run_append, guardStatus_append, ← ih]
    simp only [run]
    exact guards_step _ _ _ _

/-- A step leaves the flag true exactly when it raises it or it was true and the step does not lower it. -/
theorem inner_step (s : State) (before : List Entry) (hg : ∀ g, s.guards.get? g = guardStatus g none before)
    (t : Nat) (op : Op) :
    (step s op).1.inner = true ↔
      op = .toggleOn ∨ (s.inner = true ∧ ¬ Lowers before (t, op, (step s op).2)) := by
  cases op with
  | dropGuard g =>
    simp only [step, Lowers, ← hg]
    by_cases h : s.guards.get? g = some true <;> simp [h]
  | _ => simp [step, Lowers, fetchNand, fetchAnd]

theorem raised_append (tr : List Entry) (e : Entry) :
    Raised (tr ++ [e]) ↔ e.2.1 = .toggleOn ∨ (Raised tr ∧ ¬ Lowers tr e) := by
  constructor
  · rintro ⟨a, task, r, b, h, hl⟩
    rcases List.eq_nil_or_concat b with rfl | ⟨b', x, rfl⟩
    · left
      have := List.append_inj' h rfl
      simp only [List.cons.injEq, and_true] at this
      rw [this.2]
    · right
      rw [List.concat_eq_append, ← List.cons_append, ← List.append_assoc] at h
      have := List.append_inj' h rfl
      simp only [List.cons.injEq, and_true] at this
      obtain ⟨h1, rfl⟩ := this
      refine ⟨⟨a, task, r, b', h1, ?_⟩, ?_⟩
      · intro b₁ x' b₂ hb
        apply hl b₁ x' (b₂ ++ [e])
        rw [hb]; simp
      · have := hl b' e [] (by simp)
        rw [h1]; exact this
  · rintro (h | ⟨⟨a, task, r, b, rfl, hl⟩, hn⟩)
    · obtain ⟨t, op, r⟩ := e
      simp only at h; subst h
      exact ⟨tr, t, r, [], rfl, by simp⟩
    · refine ⟨a, task, r, b ++ [e], by simp, ?_⟩
      intro b₁ x b₂ hb
      rcases List.eq_nil_or_concat b₂ with rfl | ⟨b', y, rfl⟩
      · have := List.append_inj' hb rfl
        simp only [List.cons.injEq, and_true] at this
        obtain ⟨rfl, rfl⟩ := this
        exact hn
      · rw [List.concat_eq_append, ← List.cons_append, ← List.append_assoc] at hb
        have := List.append_inj' hb rfl
        exact hl b₁ x b' this.1

theorem inner_run (ops : List (Nat × Op)) :
    (run init ops).1.inner = true ↔ Raised (run init ops).2 := by
  induction ops using List.reverseRecOn with
  | nil =>
    constructor
    · intro h; simp [run, init] at h
    · rintro ⟨a, task, r, b, h, -⟩; simp [run] at h
  | append_singleton ops x ih =>
    obtain ⟨t, op⟩ := x
    rw [run_append]
    simp only [run]
    rw [raised_append, ← ih]
    exact inner_step _ _ (guards_run ops) t op

end Verif.Toggle

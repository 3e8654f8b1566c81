import Verif.Roster.Spec
import Mathlib.Data.List.Induction

namespace Verif.Roster
open Verif

theorem after_snoc (ops : List Op) (op : Op) : after (ops ++ [op]) = (step (after ops) op).1 := by
  unfold after; rw [List.foldl_append]; rfl

theorem get?_modify {α : Type} (m : AMap Key α) (k y : Key) (f : α → α) :
    (modify m k f).get? y = if y = k then (m.get? k).map f else m.get? y := by
  unfold modify
  cases h : m.get? k with
  | none =>
    simp only [Option.map_none]
    split
    · rename_i e; rw [e, h]
    · rfl
  | some g => simp only [AMap.get?_insert, Option.map_some]

theorem get?_filter {α : Type} (m : AMap Key α) (p : Key → Bool) (y : Key) :
    AMap.get? (m.filter (fun e => p e.1)) y = if p y = true then m.get? y else none := by
  induction m with
  | nil => simp
  | cons e m ih =>
    obtain ⟨k, a⟩ := e
    rw [List.filter_cons]
    by_cases hk : k = y
    · subst hk
      by_cases hp : p k = true
      · simp [hp, AMap.get?_cons]
      · simp only [hp, if_false, Bool.false_eq_true]; rw [ih]; simp [hp]
    · by_cases hp : p k = true
      · simp only [hp, if_true, AMap.get?_cons, hk, if_false]; exact ih
      · simp only [hp, if_false, Bool.false_eq_true, AMap.get?_cons, hk]; exact ih

theorem contains_iff {α : Type} (m : AMap Key α) (k : Key) : m.contains k = true ↔ ∃ g, m.get? k = some g := by
  unfold AMap.contains; exact Option.isSome_iff_exists

theorem clientSide_groups (s : Server) (c : Nat) (sig : Signal) : (clientSide s c sig).groups = s.groups := by
  unfold clientSide; split
  · split <;> rfl
  · split <;> rfl
  · rfl

theorem clientSide_hosts (s : Server) (c : Nat) (sig : Signal) : (clientSide s c sig).hosts = s.hosts := by
  unfold clientSide; split
  · split <;> rfl
  · split <;> rfl
  · rfl

theorem mem_addTo (p q : Nat) (l : List Nat) : q ∈ addTo p l ↔ q = p ∨ q ∈ l := by
  unfold addTo; split
  · rename_i h; constructor
    · exact Or.inr
    · rintro (rfl | h'); exacts [h, h']
  · simp

/-- What a step does to one group. -/
theorem step_group (s : Server) (op : Op) (key : Key) :
    (step s op).1.groups.get? key = s.groups.get? key ∨
    (∃ c h mgid peers pub, op = .signal c h (.create mgid peers pub) ∧ c ∈ s.hosts ∧ key = (h, mgid) ∧
      s.groups.get? key = none ∧
      (step s op).1.groups.get? key = some { members := [h], pending := peers, isPublic := pub }) ∨
    (∃ g, s.groups.get? key = some g ∧
      ((∃ c h, op = .signal c h (.requestJoin key) ∧ c ∈ s.hosts ∧ (step s op).1.groups.get? key = some (joinGroup h g)) ∨
       (∃ c h, op = .signal c h (.endGroup key) ∧ c ∈ s.hosts ∧ h = key.1 ∧ (step s op).1.groups.get? key = none) ∨
       (∃ c h t, op = .signal c h (.accept t key) ∧ c ∈ s.hosts ∧ (step s op).1.groups.get? key = some (upgrade t g)) ∨
       (∃ c h t, op = .signal c h (.decline t key) ∧ c ∈ s.hosts ∧
          (step s op).1.groups.get? key = some { g with pending := g.pending.filter (· ≠ t) }) ∨
       (∃ c h, op = .signal c h (.leave key) ∧ c ∈ s.hosts ∧
          (step s op).1.groups.get? key = some { g with members := g.members.filter (· ≠ h) }) ∨
       (∃ c h l, op = .signal c h (.add key l) ∧ c ∈ s.hosts ∧ h = key.1 ∧
          (step s op).1.groups.get? key = some { g with pending := l ++ g.pending }) ∨
       (∃ c h l, op = .signal c h (.kick key l) ∧ c ∈ s.hosts ∧ h = key.1 ∧
          (step s op).1.groups.get? key = some { g with members := g.members.filter (· ∉ l) }) ∨
       (op = .disconnect key.1 ∧ (step s op).1.groups.get? key = none))) := by
  cases op with
  | connect c => exact Or.inl rfl
  | disconnect c =>
    simp only [step]
    have h := get?_filter s.groups (fun k => decide (k.1 ≠ c)) key
    rw [h]
    by_cases hc : key.1 = c
    · subst hc
      simp only [ne_eq, not_true_eq_false, decide_false, Bool.false_eq_true, if_false]
      cases hg : s.groups.get? key with
      | none => exact Or.inl rfl
      | some g => exact Or.inr (Or.inr ⟨g, rfl, by simp⟩)
    · simp [hc]
  | signal c h sig =>
    simp only [step]
    by_cases hc : c ∈ s.hosts
    swap
    · rw [if_neg hc]; exact Or.inl rfl
    rw [if_pos hc]
    have hg := clientSide_groups s c sig
    have hh := clientSide_hosts s c sig
    generalize clientSide s c sig = s' at hg hh ⊢
    obtain ⟨hosts', groups', trees'⟩ := s'
    simp only at hg hh
    subst hg; subst hh
    cases sig with
    | create mgid peers pub =>
      simp only [handle]
      split
      · rename_i hcond
        simp only [AMap.get?_insert]
        by_cases hk : key = (h, mgid)
        · subst hk
          refine Or.inr (Or.inl ⟨c, h, mgid, peers, pub, rfl, hc, rfl, ?_, by simp⟩)
          have := hcond.2.2
          unfold AMap.contains at this
          cases hx : s.groups.get? (h, mgid) with
          | none => rfl
          | some g => rw [hx] at this; cases this
        · rw [if_neg hk]; exact Or.inl rfl
      · exact Or.inl rfl
    | message k =>
      simp only [handle]
      split <;> exact Or.inl rfl
    | keyPackage k j =>
      simp only [handle]
      split <;> exact Or.inl rfl
    | endGroup k =>
      simp only [handle]
      split
      · rename_i hk
        simp only [AMap.get?_erase]
        by_cases hkey : key = k
        · subst hkey
          simp only [if_true]
          cases hx : s.groups.get? key with
          | none => exact Or.inl rfl
          | some g => exact Or.inr (Or.inr ⟨g, rfl, Or.inr (Or.inl ⟨c, h, rfl, hc, hk, trivial⟩)⟩)
        · rw [if_neg hkey]; exact Or.inl rfl
      · exact Or.inl rfl
    | requestJoin k =>
      simp only [handle, get?_modify]
      by_cases hkey : key = k
      · subst hkey
        simp only [if_true]
        cases hx : s.groups.get? key with
        | none => exact Or.inl rfl
        | some g => exact Or.inr (Or.inr ⟨g, rfl, Or.inl ⟨c, h, rfl, hc, rfl⟩⟩)
      · rw [if_neg hkey]; exact Or.inl rfl
    | accept t k =>
      simp only [handle, get?_modify]
      by_cases hkey : key = k
      · subst hkey
        simp only [if_true]
        cases hx : s.groups.get? key with
        | none => exact Or.inl rfl
        | some g => exact Or.inr (Or.inr ⟨g, rfl, Or.inr (Or.inr (Or.inl ⟨c, h, t, rfl, hc, rfl⟩))⟩)
      · rw [if_neg hkey]; exact Or.inl rfl
    | decline t k =>
      simp only [handle, get?_modify]
      by_cases hkey : key = k
      · subst hkey
        simp only [if_true]
        cases hx : s.groups.get? key with
        | none => exact Or.inl rfl
        | some g => exact Or.inr (Or.inr ⟨g, rfl, Or.inr (Or.inr (Or.inr (Or.inl ⟨c, h, t, rfl, hc, rfl⟩)))⟩)
      · rw [if_neg hkey]; exact Or.inl rfl
    | leave k =>
      simp only [handle, get?_modify]
      by_cases hkey : key = k
      · subst hkey
        simp only [if_true]
        cases hx : s.groups.get? key with
        | none => exact Or.inl rfl
        | some g => exact Or.inr (Or.inr ⟨g, rfl, Or.inr (Or.inr (Or.inr (Or.inr (Or.inl ⟨c, h, rfl, hc, rfl⟩))))⟩)
      · rw [if_neg hkey]; exact Or.inl rfl
    | add k l =>
      simp only [handle]
      split
      · rename_i hk
        simp only [get?_modify]
        by_cases hkey : key = k
        · subst hkey
          simp only [if_true]
          cases hx : s.groups.get? key with
          | none => exact Or.inl rfl
          | some g =>
            exact Or.inr (Or.inr ⟨g, rfl, Or.inr (Or.inr (Or.inr (Or.inr (Or.inr (Or.inl ⟨c, h, l, rfl, hc, hk, rfl⟩)))))⟩)
        · rw [if_neg hkey]; exact Or.inl rfl
      · exact Or.inl rfl
    | kick k l =>
      simp only [handle]
      split
      · rename_i hk
        simp only [get?_modify]
        by_cases hkey : key = k
        · subst hkey
          simp only [if_true]
          cases hx : s.groups.get? key with
          | none => exact Or.inl rfl
          | some g =>
            exact Or.inr (Or.inr ⟨g, rfl,
              Or.inr (Or.inr (Or.inr (Or.inr (Or.inr (Or.inr (Or.inl ⟨c, h, l, rfl, hc, hk, rfl⟩))))))⟩)
        · rw [if_neg hkey]; exact Or.inl rfl
      · exact Or.inl rfl

theorem Since.keep {ops : List Op} {key : Key} {P : Op → Prop} (h : Since ops key P) (op : Op)
    (he : (after (ops ++ [op])).groups.contains key = true) : Since (ops ++ [op]) key P := by
  obtain ⟨pre, o, post, rfl, hP, hex⟩ := h
  refine ⟨pre, o, post ++ [op], by simp, hP, ?_⟩
  intro p1 p2 e
  rcases List.eq_nil_or_concat p2 with rfl | ⟨p2', last, rfl⟩
  · rw [List.append_nil] at e; subst e
    rw [← List.cons_append, ← List.append_assoc]; exact he
  · rw [List.concat_eq_append, ← List.append_assoc] at e
    have := List.append_inj_left' e rfl
    exact hex p1 p2' this

theorem Since.now {ops : List Op} {key : Key} {P : Op → Prop} {op : Op} (h : P op)
    (he : (after (ops ++ [op])).groups.contains key = true) : Since (ops ++ [op]) key P := by
  refine ⟨ops, op, [], rfl, h, ?_⟩
  intro p1 p2 e
  have : p1 = [] := by
    cases p1 with
    | nil => rfl
    | cons a b => simp at e
  subst this; exact he

theorem Since.mono {ops : List Op} {key : Key} {P Q : Op → Prop} (h : Since ops key P) (hPQ : ∀ op, P op → Q op) :
    Since ops key Q := by
  obtain ⟨pre, o, post, e, hP, hex⟩ := h; exact ⟨pre, o, post, e, hPQ _ hP, hex⟩

theorem ProperAccepts.init {ops : List Op} {op : Op} (h : ProperAccepts (ops ++ [op])) : ProperAccepts ops := by
  intro pre c hd target key post e
  exact h pre c hd target key (post ++ [op]) (by rw [e]; simp)

end Verif.Roster

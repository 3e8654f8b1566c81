import Verif.TreeMath.Cover
import Verif.TreeMath.Spec
import Mathlib.Data.List.Nodup
/-
C21 (navigation) and C22 (co-path covers the other leaves).
-/
namespace Verif.TreeMath

/-- Leaves below a node, through the child maps, are its interval. -/
theorem below_leaf_iff {n : Nat} (hn : 1 ≤ n) : ∀ (k x l : Nat), level x ≤ k → x < nodeWidth n →
    (Below n x (leafToNode l) ↔ Cov n x l) := by
  intro k
  induction k with
  | zero =>
    intro x l hk hx
    have h0 : level x = 0 := by omega
    obtain ⟨i, rfl⟩ := eq_leaf_of_level h0
    rw [cov_leaf (lt_of_leaf_in hx)]
    constructor
    · intro h
      generalize hy : leafToNode l = y at h
      cases h with
      | refl => unfold leafToNode at hy; omega
      | left h _ => exact absurd h0 h
      | right h _ => exact absurd h0 h
    · rintro rfl; exact .refl _
  | succ k ih =>
    intro x l hk hx
    by_cases h0 : level x = 0
    · exact (show level x ≤ k → _ from fun h => ih x l h hx) (by omega)
    have hc := children hn hx h0
    have c1 := hc.loLeft
    have c2 := hc.mid
    have c3 := hc.hiRight
    have c4 := lo_lt_hi hn hc.leftIn
    have c5 := lo_lt_hi hn hc.rightIn
    have il := ih (left x) l (by have := hc.leftLevel; omega) hc.leftIn
    have ir := ih (right x n) l (by have := hc.rightLevel; omega) hc.rightIn
    constructor
    · intro h
      generalize hy : leafToNode l = y at h
      cases h with
      | refl => rw [← hy, leaf_level] at h0; exact absurd rfl h0
      | left _ h =>
        rw [← hy, il] at h
        unfold Cov at h ⊢; omega
      | right _ h =>
        rw [← hy, ir] at h
        unfold Cov at h ⊢; omega
    · intro h
      by_cases hm : l < lo (right x n)
      · exact .left h0 (il.2 (by unfold Cov at h ⊢; omega))
      · exact .right h0 (ir.2 (by unfold Cov at h ⊢; omega))

theorem below_in {n : Nat} (hn : 1 ≤ n) {x y : Nat} (h : Below n x y) : x < nodeWidth n → y < nodeWidth n := by
  induction h with
  | refl => exact id
  | left h _ ih => exact fun hx => ih (children hn hx h).leftIn
  | right h _ ih => exact fun hx => ih (children hn hx h).rightIn

/-! ### C21 -/

/-- **C21.** Children of an inner node are inside the tree, are different, and have that node as parent. -/
theorem C21_children {n x : Nat} (hn : 1 ≤ n) (hx : x < nodeWidth n) (hi : isLeaf x = false) :
    left x < nodeWidth n ∧ right x n < nodeWidth n ∧ left x ≠ right x n ∧ parent (left x) n = x ∧ parent (right x n) n = x := by
  have h0 : level x ≠ 0 := by
    obtain ⟨k, j, rfl⟩ := exists_node x
    rw [level_node]
    rintro rfl
    rw [node_zero] at hi
    simp [isLeaf, Nat.and_one_is_mod] at hi
  have hc := children hn hx h0
  exact ⟨hc.leftIn, hc.rightIn, by have := hc.ltX; have := hc.gtX; omega, hc.leftParent, hc.rightParent⟩

/-- **C21.** Every node but the root has a parent inside the tree, is one of its two children, and its sibling is the other. -/
theorem C21_parent {n x : Nat} (hn : 1 ≤ n) (hx : x < nodeWidth n) (hr : x ≠ root n) :
    parent x n < nodeWidth n ∧ isLeaf (parent x n) = false ∧
      (x = left (parent x n) ∧ sibling x n = right (parent x n) n ∨ x = right (parent x n) n ∧ sibling x n = left (parent x n)) := by
  have hp := parent_spec hn hx hr
  have hc := children hn hp.inside hp.inner
  refine ⟨hp.inside, ?_, ?_⟩
  · have h0 := hp.inner
    unfold level at h0
    unfold isLeaf
    rw [decide_eq_false_iff_not]
    intro e
    exact h0 (if_pos e)
  · rcases hp.child with e | e
    · refine .inl ⟨e, ?_⟩
      unfold sibling; dsimp only; rw [if_pos]
      conv_lhs => rw [e]
      exact hc.ltX
    · refine .inr ⟨e, ?_⟩
      unfold sibling; dsimp only; rw [if_neg]
      intro hlt
      have h1 := hc.gtX
      rw [← e] at h1; omega

/-- **C21.** The root is inside the tree, and is nobody's child. -/
theorem C21_root {n : Nat} (hn : 1 ≤ n) : root n < nodeWidth n ∧
    ∀ x < nodeWidth n, isLeaf x = false → left x ≠ root n ∧ right x n ≠ root n := by
  refine ⟨root_lt hn, fun x hx hi => ?_⟩
  have h0 : level x ≠ 0 := by
    obtain ⟨k, j, rfl⟩ := exists_node x
    rw [level_node]
    rintro rfl
    rw [node_zero] at hi
    simp [isLeaf, Nat.and_one_is_mod] at hi
  have hc := children hn hx h0
  have h1 := level_le_top hn hx
  have h2 := level_root hn
  constructor
  · intro e; have := hc.leftLevel; rw [e] at this; omega
  · intro e; have := hc.rightLevel; rw [e] at this; omega

theorem path_spec {n : Nat} (hn : 1 ≤ n) : ∀ (fuel x : Nat), x < nodeWidth n → top n < fuel + level x →
    Ascends n x (pathFrom n fuel x) ∧ Others n x (pathFrom n fuel x) (copathFrom n fuel x) ∧
    (∀ p ∈ pathFrom n fuel x, p < nodeWidth n) ∧ (∀ p ∈ copathFrom n fuel x, p < nodeWidth n) ∧
    (x :: pathFrom n fuel x).getLast? = some (root n) := by
  intro fuel
  induction fuel with
  | zero => intro x hx h; have := level_le_top hn hx; omega
  | succ fuel ih =>
    intro x hx h
    rw [pathFrom, copathFrom]
    by_cases hr : x = root n
    · rw [if_pos hr, if_pos hr]
      exact ⟨trivial, trivial, by simp, by simp, by simp [hr]⟩
    · rw [if_neg hr, if_neg hr]
      obtain ⟨h1, h2, h3⟩ := C21_parent hn hx hr
      have hl := level_lt_parent hn hx hr
      have hs := sibling_spec hn hx hr
      obtain ⟨i1, i2, i3, i4, i5⟩ := ih (parent x n) h1 (by omega)
      refine ⟨⟨(parent_spec hn hx hr).inner, (parent_spec hn hx hr).child, i1⟩, ⟨h3, i2⟩, ?_, ?_, ?_⟩
      · intro p hp
        rcases List.mem_cons.1 hp with rfl | hp
        · exact h1
        · exact i3 p hp
      · intro p hp
        rcases List.mem_cons.1 hp with rfl | hp
        · exact hs.inside
        · exact i4 p hp
      · rw [List.getLast?_cons_cons]; exact i5

theorem fuel_ok {n i : Nat} (hn : 1 ≤ n) : top n < nodeWidth n + level (leafToNode i) := by
  have := top_lt hn; omega

/-- **C21.** The direct path of a leaf leads from parent to parent, inside the tree, up to the root, with the co-path
beside it. -/
theorem C21_direct_path {n i : Nat} (hi : i < n) :
    Ascends n (leafToNode i) (directPath i n) ∧
    Others n (leafToNode i) (directPath i n) (copath i n) ∧
    (∀ p ∈ directPath i n, p < nodeWidth n) ∧ (∀ p ∈ copath i n, p < nodeWidth n) ∧
    (leafToNode i :: directPath i n).getLast? = some (root n) :=
  path_spec (by omega) _ _ (leaf_in hi) (fuel_ok (by omega))

theorem others_length {n : Nat} : ∀ (ps cs : List Nat) (x : Nat), Others n x ps cs → cs.length = ps.length
  | [], [], _, _ => rfl
  | p :: ps, c :: cs, _, h => by rw [List.length_cons, List.length_cons, others_length ps cs p h.2]
  | [], _ :: _, _, h => h.elim
  | _ :: _, [], _, h => h.elim

theorem path_length {n : Nat} (hn : 1 ≤ n) : ∀ (fuel x : Nat), x < nodeWidth n →
    (pathFrom n fuel x).length + level x ≤ top n := by
  intro fuel
  induction fuel with
  | zero => intro x hx; have := level_le_top hn hx; simpa [pathFrom] using this
  | succ fuel ih =>
    intro x hx
    rw [pathFrom]
    by_cases hr : x = root n
    · rw [if_pos hr]; have := level_le_top hn hx; simpa using this
    · rw [if_neg hr, List.length_cons]
      have hl := level_lt_parent hn hx hr
      have := ih _ (parent_spec hn hx hr).inside
      omega

/-- **C21.** Paths are logarithmic in the group size, and the co-path is as long as the direct path. -/
theorem C21_path_length {n i : Nat} (hi : i < n) :
    2 ^ (directPath i n).length < 2 * n ∧ (copath i n).length = (directPath i n).length := by
  have hn : 1 ≤ n := by omega
  refine ⟨?_, others_length _ _ _ (C21_direct_path hi).2.1⟩
  have h := path_length hn (nodeWidth n) _ (leaf_in hi)
  have h2 : 2 ^ (directPath i n).length ≤ 2 ^ top n := Nat.pow_le_pow_right (by omega) (by unfold directPath; omega)
  have := top_le hn
  omega

theorem mem_path {n : Nat} (hn : 1 ≤ n) : ∀ (fuel x a : Nat), x < nodeWidth n → top n < fuel + level x →
    (a ∈ x :: pathFrom n fuel x ↔ a < nodeWidth n ∧ Below n a x) := by
  have step : ∀ {a x p : Nat}, Below n a p → level p ≠ 0 → (x = left p ∨ x = right p n) → Below n a x := by
    intro a x p h h0 hx
    induction h with
    | refl =>
      rcases hx with rfl | rfl
      · exact .left h0 (.refl _)
      · exact .right h0 (.refl _)
    | left h1 _ ih => exact .left h1 (ih h0 hx)
    | right h1 _ ih => exact .right h1 (ih h0 hx)
  have up : ∀ {a x : Nat}, Below n a x → a < nodeWidth n → a ≠ x → Below n a (parent x n) := by
    intro a x h
    induction h with
    | refl => intro _ h; exact absurd rfl h
    | @left a x h0 h ih =>
      intro ha hne
      have hc := children hn ha h0
      by_cases e : left a = x
      · rw [← e, hc.leftParent]; exact .refl _
      · exact .left h0 (ih hc.leftIn e)
    | @right a x h0 h ih =>
      intro ha hne
      have hc := children hn ha h0
      by_cases e : right a n = x
      · rw [← e, hc.rightParent]; exact .refl _
      · exact .right h0 (ih hc.rightIn e)
  have lev : ∀ {a x : Nat}, Below n a x → a < nodeWidth n → a = x ∨ level x < level a := by
    intro a x h
    induction h with
    | refl => exact fun _ => .inl rfl
    | left h0 _ ih =>
      intro ha
      have hc := children hn ha h0
      have := hc.leftLevel
      rcases ih hc.leftIn with e | e
      · rw [← e]; exact .inr this
      · exact .inr (by omega)
    | right h0 _ ih =>
      intro ha
      have hc := children hn ha h0
      have := hc.rightLevel
      rcases ih hc.rightIn with e | e
      · rw [← e]; exact .inr this
      · exact .inr (by omega)
  intro fuel
  induction fuel with
  | zero => intro x a hx h; have := level_le_top hn hx; omega
  | succ fuel ih =>
    intro x a hx h
    rw [pathFrom]
    by_cases hr : x = root n
    · rw [if_pos hr, List.mem_singleton]
      constructor
      · rintro rfl; exact ⟨hx, .refl _⟩
      · rintro ⟨ha, hb⟩
        rcases lev hb ha with e | e
        · exact e
        · rw [hr, level_root hn] at e
          have := level_le_top hn ha
          omega
    · rw [if_neg hr, List.mem_cons]
      have hp := parent_spec hn hx hr
      have hl := level_lt_parent hn hx hr
      rw [ih (parent x n) a hp.inside (by omega)]
      constructor
      · rintro (rfl | ⟨h1, h2⟩)
        · exact ⟨hx, .refl _⟩
        · exact ⟨h1, step h2 hp.inner hp.child⟩
      · rintro ⟨h1, h2⟩
        by_cases e : a = x
        · exact .inl e
        · exact .inr ⟨h1, up h2 h1 e⟩

/-- **C21.** The leaf and its direct path are exactly the nodes of the tree that have the leaf below them. -/
theorem C21_path_is_ancestors {n i a : Nat} (hi : i < n) :
    a ∈ leafToNode i :: directPath i n ↔ a < nodeWidth n ∧ Below n a (leafToNode i) :=
  mem_path (by omega) _ _ _ (leaf_in hi) (fuel_ok (by omega))

/-- Every leaf hangs below the root, and nothing below the root is outside the tree. -/
theorem C21_root_covers {n : Nat} (hn : 1 ≤ n) :
    (∀ i, Below n (root n) (leafToNode i) ↔ i < n) ∧ ∀ y, Below n (root n) y → y < nodeWidth n :=
  ⟨fun i => by rw [below_leaf_iff hn _ _ _ le_rfl (root_lt hn), cov_root hn], fun y h => below_in hn h (root_lt hn)⟩

/-! ### C22 -/

theorem copath_cov {n : Nat} (hn : 1 ≤ n) : ∀ (fuel x l : Nat), x < nodeWidth n → top n < fuel + level x → l < n →
    (Cov n x l → ∀ c ∈ copathFrom n fuel x, ¬ Cov n c l) ∧
    (¬ Cov n x l → ∃! k : Nat, ∃ c, (copathFrom n fuel x)[k]? = some c ∧ Cov n c l) := by
  intro fuel
  induction fuel with
  | zero => intro x l hx h; have := level_le_top hn hx; omega
  | succ fuel ih =>
    intro x l hx h hl
    rw [copathFrom]
    by_cases hr : x = root n
    · rw [if_pos hr]
      exact ⟨by simp, fun h => absurd (by rw [hr, cov_root hn]; exact hl) h⟩
    · rw [if_neg hr]
      have hp := parent_spec hn hx hr
      have hlv := level_lt_parent hn hx hr
      have hs := sibling_spec hn hx hr
      obtain ⟨i1, i2⟩ := ih (parent x n) l hp.inside (by omega) hl
      constructor
      · intro hx c hc
        rcases List.mem_cons.1 hc with rfl | hc
        · exact fun h => hs.disjoint l ⟨hx, h⟩
        · exact i1 ((hs.split l).2 (.inl hx)) c hc
      · intro hx
        by_cases hsl : Cov n (sibling x n) l
        · refine ⟨0, ⟨_, rfl, hsl⟩, ?_⟩
          rintro (_ | k) ⟨c, h1, h2⟩
          · rfl
          · rw [List.getElem?_cons_succ] at h1
            exact absurd h2 (i1 ((hs.split l).2 (.inr hsl)) c (List.mem_of_getElem? h1))
        · obtain ⟨k, ⟨c, h1, h2⟩, h3⟩ := i2 (fun h => by rcases (hs.split l).1 h with h | h <;> contradiction)
          refine ⟨k + 1, ⟨c, by rw [List.getElem?_cons_succ]; exact h1, h2⟩, ?_⟩
          rintro (_ | k') ⟨c', h1', h2'⟩
          · rw [List.getElem?_cons_zero, Option.some.injEq] at h1'
            rw [← h1'] at h2'
            contradiction
          · rw [List.getElem?_cons_succ] at h1'
            rw [h3 k' ⟨c', h1', h2'⟩]

/-- **C22.** Every other leaf is below exactly one node of the co-path. -/
theorem C22_copath_covers {n i l : Nat} (hi : i < n) (hl : l < n) (hne : l ≠ i) :
    ∃! k : Nat, ∃ c, (copath i n)[k]? = some c ∧ Below n c (leafToNode l) := by
  have hn : 1 ≤ n := by omega
  have h := (copath_cov hn (nodeWidth n) (leafToNode i) l (leaf_in hi) (fuel_ok hn) hl).2
    (by rw [cov_leaf hi]; exact hne)
  have hin := (C21_direct_path hi).2.2.2.1
  have e : ∀ (k c : Nat), (copath i n)[k]? = some c → (Below n c (leafToNode l) ↔ Cov n c l) := fun k c hk =>
    below_leaf_iff hn _ _ _ le_rfl (hin c (List.mem_of_getElem? hk))
  obtain ⟨k, ⟨c, h1, h2⟩, h3⟩ := h
  exact ⟨k, ⟨c, h1, (e k c h1).2 h2⟩, fun k' ⟨c', h1', h2'⟩ => h3 k' ⟨c', h1', (e k' c' h1').1 h2'⟩⟩

/-- **C22.** The leaf itself is below none of them. -/
theorem C22_copath_excludes {n i : Nat} (hi : i < n) : ∀ c ∈ copath i n, ¬ Below n c (leafToNode i) := by
  have hn : 1 ≤ n := by omega
  intro c hc h
  have hin := (C21_direct_path hi).2.2.2.1
  rw [below_leaf_iff hn _ _ _ le_rfl (hin c hc)] at h
  exact (copath_cov hn (nodeWidth n) (leafToNode i) i (leaf_in hi) (fuel_ok hn) hi).1
    (by rw [cov_leaf hi]) c hc h

/-- **C22.** Nor is anything that is not a leaf of the group: co-path subtrees stay inside the tree. -/
theorem C22_copath_inside {n i : Nat} (hi : i < n) : ∀ c ∈ copath i n, ∀ y, Below n c y → y < nodeWidth n :=
  fun c hc _ h => below_in (by omega) h ((C21_direct_path hi).2.2.2.1 c hc)

example : directPath 5 7 = [9, 11, 7] ∧ copath 5 7 = [8, 12, 3] := by decide +kernel

end Verif.TreeMath

import Verif.TreeKem.Model
import Verif.TreeMath.Word
/-
Resolution of a node and the shape of trees the group functions produce.
-/
namespace Verif.TreeKem

open Verif.TreeMath

variable {M : Type}

/-- Contents of a node; blank outside the tree. -/
def nd (t : Tree M) (x : Nat) : Node M := (t[x]?).getD .blank

theorem getElem?_nd {t : Tree M} {x : Nat} (h : x < t.length) : t[x]? = some (nd t x) := by
  unfold nd
  rw [List.getElem?_eq_getElem h, Option.getD_some]

theorem nd_out {t : Tree M} {x : Nat} (h : t.length ≤ x) : nd t x = .blank := by
  unfold nd
  rw [List.getElem?_eq_none h, Option.getD_none]

theorem nd_set {t : Tree M} {x y : Nat} {v : Node M} (h : x < t.length) : nd (t.set x v) y = if y = x then v else nd t y := by
  unfold nd
  rw [List.getElem?_set]
  by_cases e : x = y
  · subst e; rw [if_pos rfl, if_pos h, if_pos rfl, Option.getD_some]
  · rw [if_neg e, if_neg (fun h => e h.symm)]

theorem tree_ext {t t' : Tree M} (hl : t.length = t'.length) (h : ∀ x, nd t x = nd t' x) : t = t' := by
  refine List.ext_getElem? fun x => ?_
  by_cases hx : x < t.length
  · rw [getElem?_nd hx, getElem?_nd (hl ▸ hx), h x]
  · rw [List.getElem?_eq_none (by omega), List.getElem?_eq_none (by omega)]

theorem setC_some {t : Tree M} {x : Nat} {v : Node M} (h : x < t.length) : setC t x v = some (t.set x v) := by
  unfold setC; rw [if_pos h]

/-- A tree over `n` leaves, small enough for the `u32` arithmetic. -/
structure Size (t : Tree M) (n : Nat) : Prop where
  len : t.length = 2 * n - 1
  pos : 1 ≤ n
  cap : n ≤ 2 ^ 31

theorem Size.width {t : Tree M} {n : Nat} (h : Size t n) : nodeWidth n = t.length := by
  rw [h.len, width_eq h.pos]

theorem Size.leaves {t : Tree M} {n : Nat} (h : Size t n) : numLeaves t = n := by
  unfold numLeaves
  have := h.len
  have := h.pos
  omega

theorem Size.of_len {t t' : Tree M} {n : Nat} (h : Size t n) (e : t'.length = t.length) : Size t' n :=
  ⟨by rw [e, h.len], h.pos, h.cap⟩

theorem isLeaf_iff {x : Nat} : isLeaf x = true ↔ level x = 0 := by
  obtain ⟨k, j, rfl⟩ := exists_node x
  rw [level_node]
  unfold isLeaf
  rw [decide_eq_true_iff, Nat.and_one_is_mod]
  cases k with
  | zero => rw [node_zero]; simp
  | succ k => rw [node_succ]; omega

/-- `y` lies below `x` (or is `x`). -/
def Sub (n y x : Nat) : Prop := lo x ≤ lo y ∧ hi y n ≤ hi x n

theorem Sub.refl (n x : Nat) : Sub n x x := ⟨le_rfl, le_rfl⟩
theorem Sub.trans {n x y z : Nat} (h1 : Sub n x y) (h2 : Sub n y z) : Sub n x z := ⟨h2.1.trans h1.1, h1.2.trans h2.2⟩
theorem Sub.cov {n x y l : Nat} (h : Sub n y x) (hc : Cov n y l) : Cov n x l := by
  obtain ⟨h1, h2⟩ := h
  unfold Cov at hc ⊢
  omega

theorem sub_left {n x : Nat} (hn : 1 ≤ n) (hx : x < nodeWidth n) (h0 : level x ≠ 0) : Sub n (left x) x := by
  have hc := children hn hx h0
  have h1 := hc.loLeft
  have h2 := hc.mid
  have h3 := hc.hiRight
  have h4 := lo_lt_hi hn hc.rightIn
  exact ⟨by omega, by omega⟩

theorem sub_right {n x : Nat} (hn : 1 ≤ n) (hx : x < nodeWidth n) (h0 : level x ≠ 0) : Sub n (right x n) x := by
  have hc := children hn hx h0
  have h1 := hc.loLeft
  have h2 := hc.mid
  have h3 := hc.hiRight
  have h4 := lo_lt_hi hn hc.leftIn
  exact ⟨by omega, by omega⟩

theorem cov_split {n x l : Nat} (hn : 1 ≤ n) (hx : x < nodeWidth n) (h0 : level x ≠ 0) (h : Cov n x l) :
    Cov n (left x) l ∨ Cov n (right x n) l := by
  have hc := children hn hx h0
  have h1 := hc.loLeft
  have h2 := hc.mid
  have h3 := hc.hiRight
  unfold Cov at h ⊢
  omega

theorem cov_lt {n x l : Nat} (h : Cov n x l) : l < n := by
  unfold Cov hi at h; omega

theorem lo_leaf (l : Nat) : lo (leafToNode l) = l := by
  have : leafToNode l = node 0 l := by rw [node_zero]; unfold leafToNode; omega
  rw [this, lo_node, pow_zero, mul_one]

theorem sub_leaf {n x l : Nat} (h : Cov n x l) : Sub n (leafToNode l) x := by
  have e := lo_leaf l
  have hl : level (leafToNode l) = 0 := leaf_level l
  refine ⟨by rw [e]; exact h.1, ?_⟩
  have h2 := h.2
  unfold hi at h2 ⊢
  rw [hl, e]
  omega

/-- Growing the tree keeps what is below an old node. -/
theorem cov_grow {n n' x l : Nat} (hn : n ≤ n') (h : Cov n x l) : Cov n' x l := by
  unfold Cov hi at h ⊢; omega

theorem cov_shrink {n n' x l : Nat} (h : Cov n' x l) (hl : l < n) : Cov n x l := by
  unfold Cov hi at h ⊢; omega

/-! ### The resolution without panics -/

def resP (t : Tree M) (n : Nat) : Nat → Nat → List Nat
  | 0, _ => []
  | f + 1, x =>
    match nd t x with
    | .blank => if isLeaf x then [] else resP t n f (left x) ++ resP t n f (right x n)
    | .leaf _ => [x]
    | .parent _ um => x :: um.map leafToNode

theorem resolutionF_eq {t : Tree M} {n : Nat} (hs : Size t n) : ∀ (f x : Nat), level x < f → x < nodeWidth n →
    resolutionF t f x = some (resP t n f x) := by
  intro f
  induction f with
  | zero => intro x h; omega
  | succ f ih =>
    intro x hl hx
    rw [resolutionF, resP, getElem?_nd (by rw [← hs.width]; exact hx)]
    cases nd t x with
    | blank =>
      dsimp only
      by_cases h0 : isLeaf x = true
      · rw [if_pos h0, if_pos h0]
      · rw [if_neg h0, if_neg h0]
        have h0' : level x ≠ 0 := fun e => h0 (isLeaf_iff.2 e)
        have hc := children hs.pos hx h0'
        have h1 := hc.leftLevel
        have h2 := hc.rightLevel
        have h3 := level_le_top hs.pos hx
        have h4 := top_le_31 hs.pos hs.cap
        rw [hs.leaves, leftC_eq h0' (by omega), rightC_eq hs.pos hs.cap hx h0']
        simp only [Option.bind_eq_bind, Option.bind_some]
        rw [ih _ (by omega) hc.leftIn, ih _ (by omega) hc.rightIn]
        rfl
    | leaf l => rfl
    | parent pk um => rfl

def res (t : Tree M) (n x : Nat) : List Nat := resP t n 64 x

theorem level_lt_64 {n x : Nat} (hn : 1 ≤ n) (hb : n ≤ 2 ^ 31) (hx : x < nodeWidth n) : level x < 64 := by
  have h3 := level_le_top hn hx
  have h4 := top_le_31 hn hb
  omega

theorem resolution_eq {t : Tree M} {n : Nat} (hs : Size t n) {x : Nat} (hx : x < nodeWidth n) :
    resolution t x = some (res t n x) :=
  resolutionF_eq hs _ _ (level_lt_64 hs.pos hs.cap hx) hx

theorem resP_congr {t t' : Tree M} {n : Nat} (hn : 1 ≤ n) : ∀ (f x : Nat), x < nodeWidth n →
    (∀ y, y < nodeWidth n → Sub n y x → nd t y = nd t' y) → resP t n f x = resP t' n f x := by
  intro f
  induction f with
  | zero => intro x _ _; rfl
  | succ f ih =>
    intro x hx h
    rw [resP, resP, h x hx (.refl _ _)]
    cases nd t' x with
    | blank =>
      dsimp only
      by_cases h0 : isLeaf x = true
      · rw [if_pos h0, if_pos h0]
      · rw [if_neg h0, if_neg h0]
        have h0' : level x ≠ 0 := fun e => h0 (isLeaf_iff.2 e)
        have hc := children hn hx h0'
        rw [ih _ hc.leftIn fun y hy hs => h y hy (hs.trans (sub_left hn hx h0')),
          ih _ hc.rightIn fun y hy hs => h y hy (hs.trans (sub_right hn hx h0'))]
    | leaf l => rfl
    | parent pk um => rfl

/-- Unmerged leaves of a node. -/
def Node.unmerged : Node M → List Nat
  | .parent _ um => um
  | _ => []

theorem resP_reach {t : Tree M} {n : Nat} (hn : 1 ≤ n) {l : Nat} (hl : nd t (leafToNode l) ≠ .blank) : ∀ (f x : Nat),
    level x < f → x < nodeWidth n → Cov n x l →
    leafToNode l ∈ resP t n f x ∨
      ∃ r ∈ resP t n f x, nd t r ≠ .blank ∧ r < nodeWidth n ∧ level r ≠ 0 ∧ Cov n r l ∧ l ∉ (nd t r).unmerged := by
  intro f
  induction f with
  | zero => intro x h; omega
  | succ f ih =>
    intro x hf hx hc
    by_cases h0 : level x = 0
    · left
      obtain ⟨i, rfl⟩ := eq_leaf_of_level h0
      rw [cov_leaf (lt_of_leaf_in hx)] at hc
      subst hc
      rw [resP]
      cases h : nd t (leafToNode l) with
      | blank => exact absurd h hl
      | leaf _ => simp
      | parent _ _ => simp
    · have hc' := children hn hx h0
      have h1 := hc'.leftLevel
      have h2 := hc'.rightLevel
      rw [resP]
      cases h : nd t x with
      | blank =>
        dsimp only
        rw [if_neg (fun e => h0 (isLeaf_iff.1 e))]
        rcases cov_split hn hx h0 hc with hc | hc
        · rcases ih _ (by omega) hc'.leftIn hc with g | ⟨r, g, g'⟩
          · exact .inl (List.mem_append_left _ g)
          · exact .inr ⟨r, List.mem_append_left _ g, g'⟩
        · rcases ih _ (by omega) hc'.rightIn hc with g | ⟨r, g, g'⟩
          · exact .inl (List.mem_append_right _ g)
          · exact .inr ⟨r, List.mem_append_right _ g, g'⟩
      | leaf _ =>
        refine .inr ⟨x, by simp, by rw [h]; simp, hx, h0, hc, by rw [h]; simp [Node.unmerged]⟩
      | parent pk um =>
        by_cases hu : l ∈ um
        · left
          exact List.mem_cons_of_mem _ (List.mem_map_of_mem hu)
        · exact .inr ⟨x, by simp, by rw [h]; simp, hx, h0, hc, by rw [h]; exact hu⟩

/-- Leaves sit at leaf positions, unmerged leaves are existing leaves below the node. -/
structure Shape (t : Tree M) (n : Nat) : Prop extends Size t n where
  inner : ∀ x l, nd t x = .leaf l → level x = 0
  outer : ∀ x pk um, nd t x = .parent pk um → level x ≠ 0
  unmerged : ∀ x, ∀ l ∈ (nd t x).unmerged, Cov n x l ∧ nd t (leafToNode l) ≠ .blank

theorem Shape.lt {t : Tree M} {n : Nat} (h : Shape t n) {x : Nat} (hb : nd t x ≠ .blank) : x < nodeWidth n := by
  rw [h.toSize.width]
  by_contra hx
  exact hb (nd_out (by omega))

theorem resP_mem {t : Tree M} {n : Nat} (hs : Shape t n) : ∀ (f x r : Nat), x < nodeWidth n → r ∈ resP t n f x →
    r < nodeWidth n ∧ Sub n r x ∧ nd t r ≠ .blank := by
  intro f
  induction f with
  | zero => intro x r _ h; simp [resP] at h
  | succ f ih =>
    intro x r hx h
    rw [resP] at h
    cases e : nd t x with
    | blank =>
      rw [e] at h
      dsimp only at h
      by_cases h0 : isLeaf x = true
      · rw [if_pos h0] at h; simp at h
      · rw [if_neg h0] at h
        have h0' : level x ≠ 0 := fun e => h0 (isLeaf_iff.2 e)
        have hc := children hs.pos hx h0'
        rcases List.mem_append.1 h with h | h
        · obtain ⟨a, b, c⟩ := ih _ _ hc.leftIn h
          exact ⟨a, b.trans (sub_left hs.pos hx h0'), c⟩
        · obtain ⟨a, b, c⟩ := ih _ _ hc.rightIn h
          exact ⟨a, b.trans (sub_right hs.pos hx h0'), c⟩
    | leaf l =>
      rw [e] at h
      obtain rfl := List.mem_singleton.1 h
      exact ⟨hx, .refl _ _, by rw [e]; simp⟩
    | parent pk um =>
      rw [e] at h
      rcases List.mem_cons.1 h with rfl | h
      · exact ⟨hx, .refl _ _, by rw [e]; simp⟩
      · obtain ⟨l, hl, rfl⟩ := List.mem_map.1 h
        obtain ⟨h1, h2⟩ := hs.unmerged x l (by rw [e]; exact hl)
        exact ⟨leaf_in (cov_lt h1), sub_leaf h1, h2⟩

end Verif.TreeKem

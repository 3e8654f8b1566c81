import Verif.TreeMath.Lemmas
/-
The leaves below a node form an interval; children split it.
-/
namespace Verif.TreeMath

/-- First leaf below a node. -/
def lo (x : Nat) : Nat := (x + 1 - 2 ^ level x) / 2

/-- One past the last leaf below a node. -/
def hi (x n : Nat) : Nat := min n (lo x + 2 ^ level x)

def Cov (n x l : Nat) : Prop := lo x ≤ l ∧ l < hi x n

theorem lo_node (k j : Nat) : lo (node k j) = j * 2 ^ k := by
  unfold lo
  rw [level_node, node_add_one, show (2 * j + 1) * 2 ^ k - 2 ^ k = 2 * (j * 2 ^ k) by
    rw [Nat.add_mul, Nat.one_mul, Nat.add_sub_cancel, mul_assoc]]
  omega

theorem hi_node (k j n : Nat) : hi (node k j) n = min n ((j + 1) * 2 ^ k) := by
  unfold hi
  rw [lo_node, level_node, Nat.add_mul, Nat.one_mul]

theorem lo_lt_hi {x n : Nat} (hn : 1 ≤ n) (h : x < nodeWidth n) : lo x < hi x n := by
  obtain ⟨k, j, rfl⟩ := exists_node x
  rw [node_lt hn] at h
  rw [lo_node, hi_node]
  have hp : 0 < 2 ^ k := by positivity
  rw [Nat.add_mul, Nat.one_mul] at h ⊢
  rw [mul_assoc] at h
  omega

structure Children (n x : Nat) : Prop where
  leftIn : left x < nodeWidth n
  rightIn : right x n < nodeWidth n
  leftLevel : level (left x) < level x
  rightLevel : level (right x n) < level x
  leftParent : parent (left x) n = x
  rightParent : parent (right x n) n = x
  loLeft : lo (left x) = lo x
  mid : hi (left x) n = lo (right x n)
  hiRight : hi (right x n) n = hi x n
  ltX : left x < x
  gtX : x < right x n

theorem children {n x : Nat} (hn : 1 ≤ n) (h : x < nodeWidth n) (hl : level x ≠ 0) : Children n x := by
  obtain ⟨k, j, rfl⟩ := exists_node x
  rw [level_node] at hl
  obtain ⟨k, rfl⟩ : ∃ k', k = k' + 1 := ⟨k - 1, by omega⟩
  obtain ⟨i, h1, h2, h3, h4⟩ := right_node hn h
  have hlt := left_lt (k := k) (j := j)
  have hp : 0 < 2 ^ k := by positivity
  have hin := h
  rw [node_lt hn, pow_succ] at hin
  have e0 : (2 * j + 1) * (2 ^ k * 2) = 2 * ((2 * j + 1) * 2 ^ k) := by ring
  have e1 : (2 * j + 1) * 2 ^ i * 2 ^ (k - i) = (2 * j + 1) * 2 ^ k := by
    rw [mul_assoc, ← pow_add, show i + (k - i) = k by omega]
  have e2 : (2 * j + 1) * 2 ^ k = 2 * j * 2 ^ k + 2 ^ k := by rw [Nat.add_mul, Nat.one_mul]
  have e3 : (j + 1) * 2 ^ (k + 1) = (2 * j + 1) * 2 ^ k + 2 ^ k := by rw [pow_succ]; ring
  refine ⟨?_, ?_, ?_, ?_, ?_, ?_, ?_, ?_, ?_, ?_, ?_⟩
  · rw [left_node]; omega
  · rw [h4]; exact h3
  · rw [left_node, level_node, level_node]; omega
  · rw [h4, level_node, level_node]; omega
  · rw [left_node]; exact parent_left h
  · rw [h4]; exact parent_right hn h h1 h2
  · rw [left_node, lo_node, lo_node, pow_succ]; ring
  · rw [left_node, h4, hi_node, lo_node, e1]; omega
  · rw [h4, hi_node, hi_node, e3, Nat.add_mul, Nat.one_mul, e1]
    by_cases hi0 : i = 0
    · subst hi0; rw [Nat.sub_zero]
    · have := h2 (i - 1) (by omega)
      rw [le_node hn, Nat.add_mul, Nat.one_mul, mul_assoc, mul_assoc, ← pow_add, show i - 1 + (k - (i - 1)) = k by omega] at this
      have e4 : 2 ^ (k - (i - 1)) = 2 * 2 ^ (k - i) := by
        rw [show k - (i - 1) = k - i + 1 by omega, pow_succ]; ring
      have e5 : 2 ^ (k - i) ≤ 2 ^ k := Nat.pow_le_pow_right (by omega) (by omega)
      omega
  · rw [left_node]; exact hlt
  · rw [h4]
    have g1 := node_add_one (k + 1) j
    have g2 := node_add_one (k - i) ((2 * j + 1) * 2 ^ i)
    have g3 : (2 * ((2 * j + 1) * 2 ^ i) + 1) * 2 ^ (k - i) = 2 * ((2 * j + 1) * 2 ^ k) + 2 ^ (k - i) := by
      rw [Nat.add_mul, Nat.one_mul, mul_assoc 2, e1]
    have hp2 : 0 < 2 ^ (k - i) := by positivity
    rw [pow_succ, e0] at g1
    omega

structure Parent (n x : Nat) : Prop where
  inside : parent x n < nodeWidth n
  inner : level (parent x n) ≠ 0
  child : x = left (parent x n) ∨ x = right (parent x n) n

theorem parent_spec {n x : Nat} (hn : 1 ≤ n) (h : x < nodeWidth n) (hr : x ≠ root n) : Parent n x := by
  obtain ⟨k, j, rfl⟩ := exists_node x
  obtain ⟨k', j', h1, h2⟩ := exists_parent hn h hr
  have hc := children hn h1 (by rw [level_node]; omega)
  have hp : parent (node k j) n = node (k' + 1) j' := by
    rcases h2 with h2 | h2
    · rw [h2]; exact hc.leftParent
    · rw [h2]; exact hc.rightParent
  exact ⟨by rw [hp]; exact h1, by rw [hp, level_node]; omega, by rw [hp]; exact h2⟩

theorem level_lt_parent {n x : Nat} (hn : 1 ≤ n) (h : x < nodeWidth n) (hr : x ≠ root n) : level x < level (parent x n) := by
  have hp := parent_spec hn h hr
  have hc := children hn hp.inside hp.inner
  rcases hp.child with e | e
  · rw [e]; conv_rhs => rw [← e]
    exact hc.leftLevel
  · rw [e]; conv_rhs => rw [← e]
    exact hc.rightLevel

theorem level_le_top {n x : Nat} (hn : 1 ≤ n) (h : x < nodeWidth n) : level x ≤ top n := by
  obtain ⟨k, j, rfl⟩ := exists_node x
  rw [level_node]; exact le_top hn h

theorem level_root {n : Nat} (hn : 1 ≤ n) : level (root n) = top n := by rw [root_eq hn, level_node]

theorem cov_root {n l : Nat} (hn : 1 ≤ n) : Cov n (root n) l ↔ l < n := by
  unfold Cov
  rw [root_eq hn, lo_node, hi_node]
  have h2 := lt_top (n := n)
  rw [pow_succ] at h2
  omega

/-- A node and its sibling split the leaves of their parent. -/
structure Sibling (n x : Nat) : Prop where
  inside : sibling x n < nodeWidth n
  ne : sibling x n ≠ x
  notRoot : sibling x n ≠ root n
  parent : parent (sibling x n) n = parent x n
  back : sibling (sibling x n) n = x
  split : ∀ l, Cov n (TreeMath.parent x n) l ↔ Cov n x l ∨ Cov n (sibling x n) l
  disjoint : ∀ l, ¬ (Cov n x l ∧ Cov n (sibling x n) l)

theorem sibling_spec {n x : Nat} (hn : 1 ≤ n) (h : x < nodeWidth n) (hr : x ≠ root n) : Sibling n x := by
  have hp := parent_spec hn h hr
  have hc := children hn hp.inside hp.inner
  have hp' := level_le_top hn hp.inside
  have hroot : ∀ y, level y < level (parent x n) → y ≠ root n := by
    intro y hy e
    rw [e, level_root hn] at hy; omega
  generalize hq : parent x n = p at hp hc hp' hroot
  have c1 := lo_lt_hi hn hc.leftIn
  have c2 := lo_lt_hi hn hc.rightIn
  have c3 := hc.mid
  have c4 := hc.loLeft
  have c5 := hc.hiRight
  rcases hp.child with e | e
  all_goals
    rw [hq] at e
    subst e
  · have hs : sibling (left p) n = right p n := by
      unfold sibling; dsimp only; rw [hq, if_pos hc.ltX]
    have hs' : sibling (right p n) n = left p := by
      unfold sibling; dsimp only; rw [hc.rightParent, if_neg (by have := hc.gtX; omega)]
    refine ⟨by rw [hs]; exact hc.rightIn, by rw [hs]; have := hc.ltX; have := hc.gtX; omega,
      by rw [hs]; exact hroot _ hc.rightLevel, by rw [hs, hc.rightParent, hq], by rw [hs, hs'], fun l => ?_, fun l => ?_⟩
    · rw [hs, hq]; unfold Cov; omega
    · rw [hs]; unfold Cov; omega
  · have hs : sibling (right p n) n = left p := by
      unfold sibling; dsimp only; rw [hq, if_neg (by have := hc.gtX; omega)]
    have hs' : sibling (left p) n = right p n := by
      unfold sibling; dsimp only; rw [hc.leftParent, if_pos hc.ltX]
    refine ⟨by rw [hs]; exact hc.leftIn, by rw [hs]; have := hc.ltX; have := hc.gtX; omega,
      by rw [hs]; exact hroot _ hc.leftLevel, by rw [hs, hc.leftParent, hq], by rw [hs, hs'], fun l => ?_, fun l => ?_⟩
    · rw [hs, hq]; unfold Cov; omega
    · rw [hs]; unfold Cov; omega

theorem leaf_level (i : Nat) : level (leafToNode i) = 0 := by
  have : leafToNode i = node 0 i := by rw [node_zero]; unfold leafToNode; omega
  rw [this, level_node]

theorem leaf_in {i n : Nat} (h : i < n) : leafToNode i < nodeWidth n := by
  rw [width_eq (by omega)]; unfold leafToNode; omega

theorem cov_leaf {i n l : Nat} (h : i < n) : Cov n (leafToNode i) l ↔ l = i := by
  have : leafToNode i = node 0 i := by rw [node_zero]; unfold leafToNode; omega
  unfold Cov
  rw [this, lo_node, hi_node, pow_zero]; omega

theorem eq_leaf_of_level {x : Nat} (h : level x = 0) : ∃ i, x = leafToNode i := by
  obtain ⟨k, j, rfl⟩ := exists_node x
  rw [level_node] at h
  subst h
  exact ⟨j, by rw [node_zero]; unfold leafToNode; omega⟩

theorem lt_of_leaf_in {i n : Nat} (h : leafToNode i < nodeWidth n) : i < n := by
  unfold leafToNode nodeWidth at h
  split at h <;> omega

end Verif.TreeMath

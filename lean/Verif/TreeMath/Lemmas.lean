import Verif.TreeMath.Model
import Mathlib.Data.Nat.Bitwise
import Mathlib.Data.Nat.Log
import Mathlib.Tactic.Ring
import Mathlib.Tactic.Positivity
import Mathlib.Tactic.Linarith
/-
Nodes in coordinates: `node k j` is the `j`-th node of level `k`.
-/
namespace Verif.TreeMath

def node (k j : Nat) : Nat := (2 * j + 1) * 2 ^ k - 1

theorem node_zero (j : Nat) : node 0 j = 2 * j := by simp [node]

theorem node_succ (k j : Nat) : node (k + 1) j = 2 * node k j + 1 := by
  have : 0 < (2 * j + 1) * 2 ^ k := by positivity
  unfold node
  rw [pow_succ, ← mul_assoc]
  omega

theorem node_add_one (k j : Nat) : node k j + 1 = (2 * j + 1) * 2 ^ k := by
  have : 0 < (2 * j + 1) * 2 ^ k := by positivity
  unfold node; omega

theorem exists_node (x : Nat) : ∃ k j, x = node k j := by
  induction x using Nat.strongRecOn with
  | ind x ih =>
    rcases Nat.even_or_odd' x with ⟨y, h | h⟩
    · exact ⟨0, y, by rw [node_zero]; exact h⟩
    · obtain ⟨k, j, e⟩ := ih y (by omega)
      exact ⟨k + 1, j, by rw [node_succ, ← e]; exact h⟩

theorem trailingOnes_even (y : Nat) : trailingOnes (2 * y) = 0 := by
  cases y with
  | zero => simp [trailingOnes]
  | succ y =>
    rw [show 2 * (y + 1) = (2 * y + 1) + 1 by omega, trailingOnes, if_neg (by omega)]

theorem trailingOnes_odd (y : Nat) : trailingOnes (2 * y + 1) = trailingOnes y + 1 := by
  rw [trailingOnes, if_pos (by omega), show (2 * y + 1) / 2 = y by omega]

theorem level_node (k j : Nat) : level (node k j) = k := by
  have h : trailingOnes (node k j) = k := by
    induction k with
    | zero => rw [node_zero, trailingOnes_even]
    | succ k ih => rw [node_succ, trailingOnes_odd, ih]
  unfold level
  rw [Nat.and_one_is_mod, h]
  cases k with
  | zero => rw [ite_self]
  | succ k => rw [node_succ, if_neg (by omega)]

theorem node_inj {k j k' j' : Nat} (h : node k j = node k' j') : k = k' ∧ j = j' := by
  have hk : k = k' := by rw [← level_node k j, h, level_node]
  subst hk
  refine ⟨rfl, ?_⟩
  have h1 := node_add_one k j
  have h2 := node_add_one k j'
  rw [h, h2] at h1
  have := Nat.eq_of_mul_eq_mul_right (by positivity) h1
  omega

theorem xor_odd_even (a b : Nat) : (2 * a + 1) ^^^ (2 * b) = 2 * (a ^^^ b) + 1 := by
  apply Nat.eq_of_testBit_eq
  intro i
  cases i with
  | zero => simp
  | succ i =>
    rw [Nat.testBit_xor, Nat.testBit_succ, Nat.testBit_succ, Nat.testBit_succ,
      show (2 * a + 1) / 2 = a by omega, show 2 * b / 2 = b by omega, show (2 * (a ^^^ b) + 1) / 2 = a ^^^ b by omega,
      Nat.testBit_xor]

theorem or_odd_even (a b : Nat) : (2 * a + 1) ||| (2 * b) = 2 * (a ||| b) + 1 := by
  apply Nat.eq_of_testBit_eq
  intro i
  cases i with
  | zero => simp
  | succ i =>
    rw [Nat.testBit_or, Nat.testBit_succ, Nat.testBit_succ, Nat.testBit_succ,
      show (2 * a + 1) / 2 = a by omega, show 2 * b / 2 = b by omega, show (2 * (a ||| b) + 1) / 2 = a ||| b by omega,
      Nat.testBit_or]

theorem shiftLeft_succ' (b k : Nat) : b <<< (k + 1) = 2 * (b <<< k) := by
  rw [Nat.shiftLeft_eq, Nat.shiftLeft_eq, pow_succ]; ring

theorem testBit_odd (a i : Nat) : (2 * a + 1).testBit (i + 1) = a.testBit i := by
  rw [Nat.testBit_succ, show (2 * a + 1) / 2 = a by omega]

theorem testBit_even (a i : Nat) : (2 * a).testBit (i + 1) = a.testBit i := by
  rw [Nat.testBit_succ, show 2 * a / 2 = a by omega]

theorem odd_zero (a : Nat) : (2 * a + 1).testBit 0 = true := by simp
theorem even_zero (a : Nat) : (2 * a).testBit 0 = false := by simp

theorem even_or_one (j : Nat) : (2 * j) ||| (2 * 0 + 1) = 2 * j + 1 := by
  apply Nat.eq_of_testBit_eq
  intro i
  cases i with
  | zero => rw [Nat.testBit_or, even_zero, odd_zero, odd_zero]; rfl
  | succ i => rw [Nat.testBit_or, testBit_even, testBit_odd, testBit_odd]; simp

theorem odd_xor_odd (a b : Nat) : (2 * a + 1) ^^^ (2 * b + 1) = 2 * (a ^^^ b) := by
  apply Nat.eq_of_testBit_eq
  intro i
  cases i with
  | zero => rw [Nat.testBit_xor, odd_zero, odd_zero, even_zero]; rfl
  | succ i => rw [Nat.testBit_xor, testBit_odd, testBit_odd, testBit_even, Nat.testBit_xor]

theorem even_xor_odd (a b : Nat) : (2 * a) ^^^ (2 * b + 1) = 2 * (a ^^^ b) + 1 := by
  apply Nat.eq_of_testBit_eq
  intro i
  cases i with
  | zero => rw [Nat.testBit_xor, even_zero, odd_zero, odd_zero]; rfl
  | succ i => rw [Nat.testBit_xor, testBit_even, testBit_odd, testBit_odd, Nat.testBit_xor]

theorem odd_xor_one (j : Nat) : (2 * j + 1) ^^^ 1 = 2 * j := by
  have := odd_xor_odd j 0
  rwa [Nat.xor_zero] at this

theorem left_node (k j : Nat) : left (node (k + 1) j) = node k (2 * j) := by
  unfold left
  rw [level_node, Nat.add_sub_cancel]
  induction k with
  | zero =>
    rw [node_succ, node_zero, node_zero, show (1 : Nat) <<< 0 = 1 from rfl, odd_xor_one]
  | succ k ih => rw [node_succ, shiftLeft_succ', xor_odd_even, ih, ← node_succ]

theorem xor_three (k j : Nat) : node (k + 1) j ^^^ (3 <<< k) = node k (2 * j + 1) := by
  induction k with
  | zero =>
    rw [node_succ, node_zero, node_zero, show (3 : Nat) <<< 0 = 2 * 1 + 1 from rfl, odd_xor_odd]
    have := even_xor_odd j 0
    rw [Nat.xor_zero] at this
    rw [show (1 : Nat) = 2 * 0 + 1 from rfl, this]
  | succ k ih => rw [node_succ, shiftLeft_succ', xor_odd_even, ih, ← node_succ]

theorem node_shift (k j : Nat) : node k j >>> (k + 1) = j := by
  rw [Nat.shiftRight_eq_div_pow]
  have h := node_add_one k j
  have hp : 0 < 2 ^ k := by positivity
  rw [Nat.div_eq_iff (by positivity), pow_succ]
  have e : (2 * j + 1) * 2 ^ k = j * (2 ^ k * 2) + 2 ^ k := by ring
  omega

theorem parentStep_node (k j : Nat) : parentStep (node k j) = node (k + 1) (j / 2) := by
  unfold parentStep
  dsimp only
  rw [level_node, node_shift, Nat.and_one_is_mod]
  induction k with
  | zero =>
    rw [node_zero, show (1 : Nat) <<< 0 = 2 * 0 + 1 from rfl, even_or_one, node_succ, node_zero, shiftLeft_succ', xor_odd_even,
      show (j % 2) <<< 0 = j % 2 from rfl]
    congr 2
    rcases Nat.even_or_odd' j with ⟨y, h | h⟩
    · subst h
      rw [show 2 * y % 2 = 0 by omega, Nat.xor_zero]; omega
    · subst h
      rw [show (2 * y + 1) % 2 = 1 by omega, odd_xor_one]; omega
  | succ k ih => rw [node_succ, shiftLeft_succ' 1, or_odd_even, shiftLeft_succ', xor_odd_even, ih, ← node_succ]

theorem width_eq {n : Nat} (hn : 1 ≤ n) : nodeWidth n = 2 * n - 1 := by
  unfold nodeWidth; rw [if_neg (by omega)]; omega

/-- Being inside the tree, in coordinates. -/
theorem node_lt {n k j : Nat} (hn : 1 ≤ n) : node k j < nodeWidth n ↔ (2 * j + 1) * 2 ^ k < 2 * n := by
  rw [width_eq hn, ← node_add_one]; omega

theorem le_node {n k j : Nat} (hn : 1 ≤ n) : nodeWidth n ≤ node k j ↔ 2 * n ≤ (2 * j + 1) * 2 ^ k := by
  rw [← not_lt, node_lt hn, not_lt]

/-- The level of the root. -/
def top (n : Nat) : Nat := Nat.log2 (2 * n - 1)

theorem root_eq {n : Nat} (hn : 1 ≤ n) : root n = node (top n) 0 := by
  unfold root log2 node top
  rw [width_eq hn, if_neg (by omega), Nat.shiftLeft_eq]

theorem top_le {n : Nat} (hn : 1 ≤ n) : 2 ^ top n ≤ 2 * n - 1 := Nat.log2_self_le (by omega)

theorem lt_top {n : Nat} : 2 * n ≤ 2 ^ (top n + 1) := by
  have : 2 * n - 1 < 2 ^ (top n + 1) := Nat.lt_log2_self
  omega

theorem le_top {n k j : Nat} (hn : 1 ≤ n) (h : node k j < nodeWidth n) : k ≤ top n := by
  rw [node_lt hn] at h
  have h2 := lt_top (n := n)
  have : 2 ^ k < 2 ^ (top n + 1) := by nlinarith [Nat.one_le_two_pow (n := k)]
  have := (Nat.pow_lt_pow_iff_right (by omega)).1 this
  omega

theorem index_lt {n k j : Nat} (hn : 1 ≤ n) (h : node k j < nodeWidth n) : j < 2 ^ (top n - k) := by
  have hk := le_top hn h
  rw [node_lt hn] at h
  have h2 := lt_top (n := n)
  have e : 2 ^ (top n + 1) = 2 * 2 ^ (top n - k) * 2 ^ k := by
    rw [mul_assoc, ← pow_add, show top n - k + k = top n by omega, pow_succ]; ring
  have : 2 * j + 1 < 2 * 2 ^ (top n - k) := by
    have : (2 * j + 1) * 2 ^ k < 2 * 2 ^ (top n - k) * 2 ^ k := by omega
    exact Nat.lt_of_mul_lt_mul_right this
  omega

/-- An inner node of the top level is the root. -/
theorem eq_root {n k j : Nat} (hn : 1 ≤ n) (h : node k j < nodeWidth n) (hk : top n ≤ k) : node k j = root n := by
  have h1 := le_top hn h
  have : k = top n := by omega
  subst this
  have := index_lt hn h
  rw [Nat.sub_self, pow_zero] at this
  rw [root_eq hn, show j = 0 by omega]

theorem lt_root_level {n k j : Nat} (hn : 1 ≤ n) (h : node k j < nodeWidth n) (hr : node k j ≠ root n) : k < top n := by
  apply Nat.lt_of_not_le
  intro hk
  exact hr (eq_root hn h hk)

theorem root_lt {n : Nat} (hn : 1 ≤ n) : root n < nodeWidth n := by
  rw [root_eq hn, node_lt hn]
  have := top_le hn
  omega

theorem top_lt {n : Nat} (hn : 1 ≤ n) : top n < nodeWidth n := by
  have h := top_le hn
  have := Nat.lt_two_pow_self (n := top n)
  rw [width_eq hn]; omega

/-! ### The loops -/

theorem climb_eq {w : Nat} : ∀ (i fuel k j : Nat), i ≤ fuel → (∀ s < i, w ≤ node (k + s) (j / 2 ^ s)) →
    node (k + i) (j / 2 ^ i) < w → climb w fuel (node k j) = node (k + i) (j / 2 ^ i) := by
  intro i
  induction i with
  | zero =>
    intro fuel k j _ _ h
    rw [pow_zero, Nat.div_one, Nat.add_zero] at h ⊢
    cases fuel with
    | zero => rfl
    | succ fuel => rw [climb, if_neg (by omega)]
  | succ i ih =>
    intro fuel k j hf hs h
    cases fuel with
    | zero => omega
    | succ fuel =>
      have h0 := hs 0 (by omega)
      rw [pow_zero, Nat.div_one, Nat.add_zero] at h0
      have e : ∀ s, node (k + 1 + s) (j / 2 / 2 ^ s) = node (k + (s + 1)) (j / 2 ^ (s + 1)) := by
        intro s
        rw [Nat.div_div_eq_div_mul, show k + 1 + s = k + (s + 1) by omega, pow_succ, Nat.mul_comm 2]
      rw [climb, if_pos h0, parentStep_node, ih fuel (k + 1) (j / 2) (by omega) (fun s hs' => by rw [e]; exact hs _ (by omega))
        (by rw [e]; exact h), e]

theorem descend_eq {w : Nat} : ∀ (i fuel k j : Nat), i ≤ fuel → i ≤ k → (∀ s < i, w ≤ node (k - s) (j * 2 ^ s)) →
    node (k - i) (j * 2 ^ i) < w → descend w fuel (node k j) = node (k - i) (j * 2 ^ i) := by
  intro i
  induction i with
  | zero =>
    intro fuel k j _ _ _ h
    rw [pow_zero, Nat.mul_one, Nat.sub_zero] at h ⊢
    cases fuel with
    | zero => rfl
    | succ fuel => rw [descend, if_neg (by omega)]
  | succ i ih =>
    intro fuel k j hf hk hs h
    cases fuel with
    | zero => omega
    | succ fuel =>
      cases k with
      | zero => omega
      | succ k =>
        have h0 := hs 0 (by omega)
        rw [pow_zero, Nat.mul_one, Nat.sub_zero] at h0
        have e : ∀ s, node (k - s) (2 * j * 2 ^ s) = node (k + 1 - (s + 1)) (j * 2 ^ (s + 1)) := by
          intro s
          rw [show k + 1 - (s + 1) = k - s by omega, pow_succ]
          congr 1; ring
        rw [descend, if_pos h0, left_node, ih fuel k (2 * j) (by omega) (by omega)
          (fun s hs' => by rw [e]; exact hs _ (by omega)) (by rw [e]; exact h), e]

/-- The first level at which the left edge of a subtree enters the tree. -/
theorem exists_entry {w k j : Nat} (h : node 0 (j * 2 ^ k) < w) :
    ∃ i, i ≤ k ∧ (∀ s < i, w ≤ node (k - s) (j * 2 ^ s)) ∧ node (k - i) (j * 2 ^ i) < w := by
  have hex : ∃ i, node (k - i) (j * 2 ^ i) < w := ⟨k, by rw [Nat.sub_self]; exact h⟩
  refine ⟨Nat.find hex, Nat.find_min' hex (by rw [Nat.sub_self]; exact h), fun s hs => ?_, Nat.find_spec hex⟩
  exact not_lt.1 (Nat.find_min hex hs)

theorem le_node_level (k j : Nat) : k ≤ node k j := by
  have h := node_add_one k j
  have h2 := Nat.lt_two_pow_self (n := k)
  have : 2 ^ k ≤ (2 * j + 1) * 2 ^ k := Nat.le_mul_of_pos_left _ (by omega)
  omega

/-- The right child in coordinates. -/
theorem right_node {n k j : Nat} (hn : 1 ≤ n) (h : node (k + 1) j < nodeWidth n) :
    ∃ i, i ≤ k ∧ (∀ s < i, nodeWidth n ≤ node (k - s) ((2 * j + 1) * 2 ^ s)) ∧
      node (k - i) ((2 * j + 1) * 2 ^ i) < nodeWidth n ∧
      right (node (k + 1) j) n = node (k - i) ((2 * j + 1) * 2 ^ i) := by
  have hleaf : node 0 ((2 * j + 1) * 2 ^ k) < nodeWidth n := by
    rw [node_lt hn] at h ⊢
    rw [pow_zero, Nat.mul_one]
    rw [pow_succ, ← mul_assoc] at h
    omega
  obtain ⟨i, h1, h2, h3⟩ := exists_entry hleaf
  refine ⟨i, h1, h2, h3, ?_⟩
  unfold right
  rw [level_node, Nat.add_sub_cancel, xor_three]
  exact descend_eq i _ k _ (by have := le_node_level (k + 1) j; omega) h1 h2 h3

theorem left_lt {k j : Nat} : node k (2 * j) < node (k + 1) j := by
  have h1 := node_add_one k (2 * j)
  have h2 := node_add_one (k + 1) j
  have hp : 0 < 2 ^ k := by positivity
  have e : (2 * j + 1) * 2 ^ (k + 1) = (2 * (2 * j) + 1) * 2 ^ k + 2 ^ k := by rw [pow_succ]; ring
  omega

theorem parent_left {n k j : Nat} (h : node (k + 1) j < nodeWidth n) : parent (node k (2 * j)) n = node (k + 1) j := by
  unfold parent
  rw [parentStep_node, show 2 * j / 2 = j by omega]
  have := climb_eq 0 (nodeWidth n) (k + 1) j (by omega) (by omega) (by simpa using h)
  simpa using this

theorem parent_right {n k j i : Nat} (hn : 1 ≤ n) (h : node (k + 1) j < nodeWidth n) (hi : i ≤ k)
    (hs : ∀ s < i, nodeWidth n ≤ node (k - s) ((2 * j + 1) * 2 ^ s)) :
    parent (node (k - i) ((2 * j + 1) * 2 ^ i)) n = node (k + 1) j := by
  unfold parent
  rw [parentStep_node]
  have key : ∀ s ≤ i, node (k - i + 1 + s) ((2 * j + 1) * 2 ^ i / 2 / 2 ^ s) =
      if s = i then node (k + 1) j else node (k - (i - 1 - s)) ((2 * j + 1) * 2 ^ (i - 1 - s)) := by
    intro s hs'
    rw [Nat.div_div_eq_div_mul, show 2 * 2 ^ s = 2 ^ (s + 1) by rw [pow_succ]; ring]
    split
    · next e =>
      subst e
      rw [pow_succ, ← Nat.div_div_eq_div_mul, Nat.mul_div_cancel _ (by positivity)]
      congr 1 <;> omega
    · have e : 2 ^ i = 2 ^ (i - 1 - s) * 2 ^ (s + 1) := by rw [← pow_add]; congr 1; omega
      rw [e, ← mul_assoc, Nat.mul_div_cancel _ (by positivity)]
      congr 1; omega
  have := climb_eq (w := nodeWidth n) i (nodeWidth n) (k - i + 1) ((2 * j + 1) * 2 ^ i / 2) (by
      have h1 := le_top hn h
      have h2 := top_lt hn
      omega) (fun s hs' => by
      rw [key s (by omega), if_neg (by omega)]
      exact hs _ (by omega)) (by rw [key i (Nat.le_refl _), if_pos rfl]; exact h)
  rw [this, key i (Nat.le_refl _), if_pos rfl]

/-- Every node but the root is a child of a node inside the tree. -/
theorem exists_parent {n k j : Nat} (hn : 1 ≤ n) (h : node k j < nodeWidth n) (hr : node k j ≠ root n) :
    ∃ k' j', node (k' + 1) j' < nodeWidth n ∧
      (node k j = left (node (k' + 1) j') ∨ node k j = right (node (k' + 1) j') n) := by
  have hk := lt_root_level hn h hr
  -- the first in-tree node above
  have hex : ∃ i, node (k + (i + 1)) (j / 2 ^ (i + 1)) < nodeWidth n := by
    refine ⟨top n - k - 1, ?_⟩
    have e : top n - k - 1 + 1 = top n - k := by omega
    rw [e, Nat.div_eq_of_lt (index_lt hn h), show k + (top n - k) = top n by omega, ← root_eq hn]
    exact root_lt hn
  obtain ⟨i, hi, hmin⟩ : ∃ i, node (k + (i + 1)) (j / 2 ^ (i + 1)) < nodeWidth n ∧
      ∀ s < i, nodeWidth n ≤ node (k + (s + 1)) (j / 2 ^ (s + 1)) :=
    ⟨Nat.find hex, Nat.find_spec hex, fun s hs => not_lt.1 (Nat.find_min hex hs)⟩
  have heven : ∀ t ≤ i, j = j / 2 ^ t * 2 ^ t := by
    intro t
    induction t with
    | zero => intro _; simp
    | succ t ih =>
      intro ht
      have ih := ih (by omega)
      have hout := hmin t (by omega)
      have hdiv : j / 2 ^ (t + 1) = j / 2 ^ t / 2 := by rw [pow_succ, Nat.div_div_eq_div_mul]
      rw [hdiv] at hout ⊢
      generalize j / 2 ^ t = m at ih hout ⊢
      rcases Nat.even_or_odd' m with ⟨y, e | e⟩
      · subst e
        rw [show 2 * y / 2 = y by omega, pow_succ, ih]; ring
      · exfalso
        subst e
        rw [show (2 * y + 1) / 2 = y by omega, le_node hn] at hout
        rw [node_lt hn, ih] at h
        have e2 : (2 * y + 1) * 2 ^ (k + (t + 1)) = 2 * ((2 * y + 1) * 2 ^ t) * 2 ^ k := by
          rw [show k + (t + 1) = t + 1 + k by omega, pow_add, pow_succ]; ring
        have hp : 0 < 2 ^ k := by positivity
        rw [e2] at hout
        rw [Nat.add_mul, Nat.one_mul] at h
        omega
  have hj := heven i (Nat.le_refl _)
  have hdiv : j / 2 ^ (i + 1) = j / 2 ^ i / 2 := by rw [pow_succ, Nat.div_div_eq_div_mul]
  refine ⟨k + i, j / 2 ^ (i + 1), hi, ?_⟩
  have hi0 := hi
  rw [hdiv] at hi ⊢
  have hin : node (k + i) (j / 2 ^ i) = node k j ∨ nodeWidth n ≤ node (k + i) (j / 2 ^ i) := by
    cases i with
    | zero => left; simp
    | succ i => right; exact hmin i (by omega)
  generalize hm : j / 2 ^ i = m at hi hj hin ⊢
  rcases Nat.even_or_odd' m with ⟨y, e | e⟩
  · subst e
    rw [show 2 * y / 2 = y by omega] at hi ⊢
    left
    rw [left_node]
    rcases hin with hin | hin
    · exact hin.symm
    · have := left_lt (k := k + i) (j := y)
      change node (k + i + 1) y < _ at hi
      omega
  · subst e
    rw [show (2 * y + 1) / 2 = y by omega] at hi ⊢
    right
    have hs : ∀ s < i, nodeWidth n ≤ node (k + i - s) ((2 * y + 1) * 2 ^ s) := by
      intro s hs
      have := hmin (i - 1 - s) (by omega)
      have e1 : k + (i - 1 - s + 1) = k + i - s := by omega
      have e2 : j / 2 ^ (i - 1 - s + 1) = (2 * y + 1) * 2 ^ s := by
        rw [hj, show (2 : Nat) ^ i = 2 ^ s * 2 ^ (i - 1 - s + 1) by rw [← pow_add]; congr 1; omega, ← mul_assoc,
          Nat.mul_div_cancel _ (by positivity)]
      rw [e1, e2] at this
      exact this
    unfold right
    rw [level_node, Nat.add_sub_cancel, xor_three]
    have hend : node (k + i - i) ((2 * y + 1) * 2 ^ i) = node k j := by
      rw [Nat.add_sub_cancel, ← hj]
    rw [descend_eq i _ (k + i) (2 * y + 1) (by have := le_node_level (k + i + 1) y; omega) (by omega) hs
      (by rw [hend]; exact h), hend]

end Verif.TreeMath

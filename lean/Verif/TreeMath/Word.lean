import Verif.TreeMath.Props
/-
The `u32` versions agree with the ones over the natural numbers for all groups whose node count fits.
-/
namespace Verif.TreeMath

theorem top_le_31 {n : Nat} (hn : 1 ≤ n) (hb : n ≤ 2 ^ 31) : top n ≤ 31 := by
  by_contra h
  have h1 : 2 ^ 32 ≤ 2 ^ top n := Nat.pow_le_pow_right (by omega) (by omega)
  have := top_le hn
  omega

theorem nodeWidthC_eq {n : Nat} (hb : n ≤ 2 ^ 31) : nodeWidthC n = some (nodeWidth n) := by
  unfold nodeWidthC nodeWidth
  split
  · rfl
  · rw [if_pos (by omega)]

theorem shlC_one {k : Nat} (hk : k < 32) : shlC 1 k = some (1 <<< k) := by
  unfold shlC
  rw [if_pos hk, Nat.one_shiftLeft, Nat.mod_eq_of_lt (Nat.pow_lt_pow_right (by omega) hk)]

theorem rootC_eq {n : Nat} (hn : 1 ≤ n) (hb : n ≤ 2 ^ 31) : rootC n = some (root n) := by
  have h := top_le_31 hn hb
  unfold rootC
  rw [nodeWidthC_eq hb]
  have e : log2 (nodeWidth n) = top n := by
    unfold log2 top; rw [width_eq hn, if_neg (by omega)]
  change (shlC 1 (log2 (nodeWidth n))).bind (fun m => some (m - 1)) = _
  rw [shlC_one (by omega)]
  rfl

theorem leftC_eq {x : Nat} (h0 : level x ≠ 0) (h : level x ≤ 32) : leftC x = some (left x) := by
  unfold leftC left
  rw [if_neg h0, shlC_one (by omega)]
  rfl

theorem parentStepC_eq {x : Nat} (h : level x ≤ 30) : parentStepC x = some (parentStep x) := by
  unfold parentStepC parentStep
  dsimp only
  rw [if_pos (by omega), shlC_one (by omega)]
  have hb : (x >>> (level x + 1)) &&& 1 = 0 ∨ (x >>> (level x + 1)) &&& 1 = 1 := by
    rw [Nat.and_one_is_mod]; omega
  have e : shlC ((x >>> (level x + 1)) &&& 1) (level x + 1) = some (((x >>> (level x + 1)) &&& 1) <<< (level x + 1)) := by
    rcases hb with hb | hb <;> rw [hb]
    · unfold shlC; rw [if_pos (by omega), Nat.zero_shiftLeft]
    · exact shlC_one (by omega)
  rw [e]
  rfl

theorem climbC_eq {w : Nat} : ∀ (i fuel k j : Nat), i < fuel → k + i ≤ 31 → (∀ s < i, w ≤ node (k + s) (j / 2 ^ s)) →
    node (k + i) (j / 2 ^ i) < w → climbC w fuel (node k j) = some (node (k + i) (j / 2 ^ i)) := by
  intro i
  induction i with
  | zero =>
    intro fuel k j hf _ _ h
    rw [pow_zero, Nat.div_one, Nat.add_zero] at h ⊢
    cases fuel with
    | zero => omega
    | succ fuel => rw [climbC, if_neg (by omega)]
  | succ i ih =>
    intro fuel k j hf hk hs h
    cases fuel with
    | zero => omega
    | succ fuel =>
      have h0 := hs 0 (by omega)
      rw [pow_zero, Nat.div_one, Nat.add_zero] at h0
      have e : ∀ s, node (k + 1 + s) (j / 2 / 2 ^ s) = node (k + (s + 1)) (j / 2 ^ (s + 1)) := by
        intro s
        rw [Nat.div_div_eq_div_mul, show k + 1 + s = k + (s + 1) by omega, pow_succ, Nat.mul_comm 2]
      rw [climbC, if_pos h0, parentStepC_eq (by rw [level_node]; omega), parentStep_node, Option.bind_some,
        ih fuel (k + 1) (j / 2) (by omega) (by omega) (fun s hs' => by rw [e]; exact hs _ (by omega))
        (by rw [e]; exact h), e]

theorem descendC_eq {w : Nat} : ∀ (i fuel k j : Nat), i < fuel → i ≤ k → k ≤ 32 → (∀ s < i, w ≤ node (k - s) (j * 2 ^ s)) →
    node (k - i) (j * 2 ^ i) < w → descendC w fuel (node k j) = some (node (k - i) (j * 2 ^ i)) := by
  intro i
  induction i with
  | zero =>
    intro fuel k j hf _ _ _ h
    rw [pow_zero, Nat.mul_one, Nat.sub_zero] at h ⊢
    cases fuel with
    | zero => omega
    | succ fuel => rw [descendC, if_neg (by omega)]
  | succ i ih =>
    intro fuel k j hf hk hb hs h
    cases fuel with
    | zero => omega
    | succ fuel =>
      cases k with
      | zero => omega
      | succ k =>
        have h0 := hs 0 (by omega)
        rw [pow_zero, Nat.mul_one, Nat.sub_zero] at h0
        have e : ∀ s, node (k - s) (2 * j * 2 ^ s) = node (k + 1 - (s + 1)) (j * 2 ^ (s + 1)) := by
          intro s
          rw [show k + 1 - (s + 1) = k - s by omega, pow_succ]
          congr 1; ring
        rw [descendC, if_pos h0, leftC_eq (by rw [level_node]; omega) (by rw [level_node]; omega), left_node,
          Option.bind_some, ih fuel k (2 * j) (by omega) (by omega) (by omega)
          (fun s hs' => by rw [e]; exact hs _ (by omega)) (by rw [e]; exact h), e]

theorem rightC_eq {n x : Nat} (hn : 1 ≤ n) (hb : n ≤ 2 ^ 31) (hx : x < nodeWidth n) (h0 : level x ≠ 0) :
    rightC x n = some (right x n) := by
  have ht := top_le_31 hn hb
  have hl := level_le_top hn hx
  obtain ⟨k, j, rfl⟩ := exists_node x
  rw [level_node] at h0 hl
  obtain ⟨k, rfl⟩ : ∃ k', k = k' + 1 := ⟨k - 1, by omega⟩
  obtain ⟨i, h1, h2, h3, h4⟩ := right_node hn hx
  unfold rightC
  rw [level_node, if_neg (by omega), Nat.add_sub_cancel]
  have e : shlC 3 k = some (3 <<< k) := by
    unfold shlC
    rw [if_pos (by omega), Nat.shiftLeft_eq, Nat.mod_eq_of_lt]
    have : 2 ^ k ≤ 2 ^ 30 := Nat.pow_le_pow_right (by omega) (by omega)
    omega
  rw [e, nodeWidthC_eq hb]
  change descendC (nodeWidth n) 64 (node (k + 1) j ^^^ 3 <<< k) = _
  rw [xor_three, descendC_eq i 64 k (2 * j + 1) (by omega) h1 (by omega) h2 h3, h4]

theorem parentC_eq {n x : Nat} (hn : 1 ≤ n) (hb : n ≤ 2 ^ 31) (hx : x < nodeWidth n) (hr : x ≠ root n) :
    parentC x n = some (parent x n) := by
  have ht := top_le_31 hn hb
  obtain ⟨k, j, rfl⟩ := exists_node x
  have hk := lt_root_level hn hx hr
  have hj := index_lt hn hx
  have hroot : node (k + 1 + (top n - k - 1)) (j / 2 / 2 ^ (top n - k - 1)) < nodeWidth n := by
    rw [Nat.div_div_eq_div_mul, ← pow_succ', show top n - k - 1 + 1 = top n - k by omega, Nat.div_eq_of_lt hj,
      show k + 1 + (top n - k - 1) = top n by omega, ← root_eq hn]
    exact root_lt hn
  have hex : ∃ i, node (k + 1 + i) (j / 2 / 2 ^ i) < nodeWidth n := ⟨_, hroot⟩
  have hle := Nat.find_min' hex hroot
  have hmin : ∀ s < Nat.find hex, nodeWidth n ≤ node (k + 1 + s) (j / 2 / 2 ^ s) := fun s hs =>
    not_lt.1 (Nat.find_min hex hs)
  unfold parentC parent
  rw [rootC_eq hn hb, nodeWidthC_eq hb]
  change (if node k j = root n then none else (parentStepC (node k j)).bind (climbC (nodeWidth n) 64)) = _
  have hw := top_lt hn
  rw [if_neg hr, parentStepC_eq (by rw [level_node]; omega), parentStep_node, Option.bind_some,
    climbC_eq (Nat.find hex) 64 _ _ (by omega) (by omega) hmin (Nat.find_spec hex),
    climb_eq (Nat.find hex) _ _ _ (by omega) hmin (Nat.find_spec hex)]

theorem siblingC_eq {n x : Nat} (hn : 1 ≤ n) (hb : n ≤ 2 ^ 31) (hx : x < nodeWidth n) (hr : x ≠ root n) :
    siblingC x n = some (sibling x n) := by
  have ht := top_le_31 hn hb
  have hp := parent_spec hn hx hr
  have hl := level_le_top hn hp.inside
  unfold siblingC sibling
  rw [parentC_eq hn hb hx hr]
  change (if x < parent x n then rightC (parent x n) n else leftC (parent x n)) = _
  dsimp only
  split
  · exact rightC_eq hn hb hp.inside hp.inner
  · exact leftC_eq hp.inner (by omega)

theorem pathsC_eq {n : Nat} (hn : 1 ≤ n) (hb : n ≤ 2 ^ 31) : ∀ (f g x : Nat), x < nodeWidth n → top n < f + level x →
    top n < g + level x → pathFromC n (root n) f x = some (pathFrom n g x) ∧
      copathFromC n (root n) f x = some (copathFrom n g x) := by
  intro f
  induction f with
  | zero => intro g x hx h; have := level_le_top hn hx; omega
  | succ f ih =>
    intro g x hx h1 h2
    cases g with
    | zero => have := level_le_top hn hx; omega
    | succ g =>
      rw [pathFromC, copathFromC, pathFrom, copathFrom]
      by_cases hr : x = root n
      · rw [if_pos hr, if_pos hr, if_pos hr, if_pos hr]; exact ⟨rfl, rfl⟩
      · rw [if_neg hr, if_neg hr, if_neg hr, if_neg hr]
        have hl := level_lt_parent hn hx hr
        obtain ⟨i1, i2⟩ := ih g (parent x n) (parent_spec hn hx hr).inside (by omega) (by omega)
        rw [siblingC_eq hn hb hx hr, parentC_eq hn hb hx hr]
        constructor
        · change (pathFromC n (root n) f (parent x n)).bind _ = _
          rw [i1]; rfl
        · change (copathFromC n (root n) f (parent x n)).bind _ = _
          rw [i2]; rfl

/-- **C21.** On `u32`, for every group of at most 2^31 leaves and every node of its tree: no function panics, overflows or
loops, and each returns what it returns on natural numbers, so everything proved there holds of it. -/
theorem C21_u32 {n : Nat} (hn : 1 ≤ n) (hb : n ≤ 2 ^ 31) :
    nodeWidthC n = some (nodeWidth n) ∧ nodeWidth n < 2 ^ 32 ∧ rootC n = some (root n) ∧
    (∀ x < nodeWidth n, isLeaf x = false → leftC x = some (left x) ∧ rightC x n = some (right x n)) ∧
    (∀ x < nodeWidth n, x ≠ root n → parentC x n = some (parent x n) ∧ siblingC x n = some (sibling x n)) ∧
    (∀ i < n, leafToNodeC i = some (leafToNode i) ∧ directPathC i n = some (directPath i n) ∧
      copathC i n = some (copath i n)) := by
  have ht := top_le_31 hn hb
  refine ⟨nodeWidthC_eq hb, by rw [width_eq hn]; omega, rootC_eq hn hb, fun x hx hi => ?_, fun x hx hr =>
    ⟨parentC_eq hn hb hx hr, siblingC_eq hn hb hx hr⟩, fun i hi => ?_⟩
  · have h0 : level x ≠ 0 := by
      intro e
      obtain ⟨i, rfl⟩ := eq_leaf_of_level e
      simp [isLeaf, leafToNode, Nat.and_one_is_mod] at hi
    have hl := level_le_top hn hx
    exact ⟨leftC_eq h0 (by omega), rightC_eq hn hb hx h0⟩
  · have e : leafToNodeC i = some (leafToNode i) := by unfold leafToNodeC leafToNode; rw [if_pos (by omega)]
    obtain ⟨h1, h2⟩ := pathsC_eq hn hb 64 (nodeWidth n) (leafToNode i) (leaf_in hi) (by omega) (fuel_ok hn)
    refine ⟨e, ?_, ?_⟩
    · unfold directPathC; rw [rootC_eq hn hb, e]; exact h1
    · unfold copathC; rw [rootC_eq hn hb, e]; exact h2

theorem climbC_none {w : Nat} : ∀ (fuel k j : Nat), (∀ s, w ≤ node (k + s) (j / 2 ^ s)) → climbC w fuel (node k j) = none := by
  intro fuel
  induction fuel with
  | zero => intro k j _; rfl
  | succ fuel ih =>
    intro k j hs
    have h0 := hs 0
    rw [pow_zero, Nat.div_one, Nat.add_zero] at h0
    rw [climbC, if_pos h0]
    by_cases hk : k ≤ 30
    · rw [parentStepC_eq (by rw [level_node]; omega), parentStep_node, Option.bind_some]
      refine ih _ _ fun s => ?_
      have := hs (s + 1)
      rwa [pow_succ', ← Nat.div_div_eq_div_mul, show k + (s + 1) = k + 1 + s by omega] at this
    · unfold parentStepC
      dsimp only
      rw [level_node, if_neg (by omega)]
      rfl

/-- A leaf index beyond the full tree: `direct_path` shifts too far (a panic; without overflow checks, it does not end). -/
theorem directPathC_out_of_range {n i : Nat} (hn : 1 ≤ n) (hb : n ≤ 2 ^ 31) (hi : 2 ^ top n ≤ i) : directPathC i n = none := by
  have hout : ∀ s, nodeWidth n ≤ node s (i / 2 ^ s) := by
    intro s
    by_contra h
    have h := not_le.1 h
    have h1 := le_top hn h
    have h2 := index_lt hn h
    rw [Nat.div_lt_iff_lt_mul (by positivity), ← pow_add, show top n - s + s = top n by omega] at h2
    omega
  have hne : leafToNode i ≠ root n := by
    have h1 := hout 0
    have h2 := root_lt hn
    rw [node_zero, pow_zero, Nat.div_one] at h1
    unfold leafToNode
    omega
  unfold directPathC leafToNodeC
  rw [rootC_eq hn hb]
  split
  · change pathFromC n (root n) 64 (leafToNode i) = none
    rw [pathFromC, if_neg hne]
    have : parentC (leafToNode i) n = none := by
      unfold parentC
      rw [rootC_eq hn hb, nodeWidthC_eq hb]
      change (if leafToNode i = root n then none else (parentStepC (leafToNode i)).bind (climbC (nodeWidth n) 64)) = _
      have e : leafToNode i = node 0 i := by rw [node_zero]; unfold leafToNode; omega
      rw [if_neg hne, e, parentStepC_eq (by rw [level_node]; omega), parentStep_node, Option.bind_some]
      refine climbC_none _ _ _ fun s => ?_
      have := hout (s + 1)
      rwa [pow_succ', ← Nat.div_div_eq_div_mul, show s + 1 = 0 + 1 + s by omega] at this
    rw [this]
    rfl
  · rfl

example : 2 ^ top 3 = 4 ∧ directPathC 4 3 = none := by decide +kernel

/-- The bound is sharp: one more leaf and the node count overflows. -/
example : nodeWidthC (2 ^ 31 + 1) = none := by decide +kernel

end Verif.TreeMath

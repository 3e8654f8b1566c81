import Verif.TreeKem.Path
/-
Effect of adding, removing and re-keying on the tree and on what members hold.
-/
namespace Verif.TreeKem

open Verif.TreeMath

variable {M : Type} (P : Prims M)

theorem foldlM_nd {f : Tree M → Nat → Option (Tree M)} {g : Node M → Node M}
    (hf : ∀ t x, x < t.length → ∃ t', f t x = some t' ∧ t'.length = t.length ∧
      ∀ y, nd t' y = if y = x then g (nd t x) else nd t y) :
    ∀ (dp : List Nat) (t : Tree M), dp.Nodup → (∀ x ∈ dp, x < t.length) →
    ∃ t', dp.foldlM f t = some t' ∧ t'.length = t.length ∧ ∀ y, nd t' y = if y ∈ dp then g (nd t y) else nd t y := by
  intro dp
  induction dp with
  | nil => intro t _ _; exact ⟨t, rfl, rfl, fun y => by simp⟩
  | cons x dp ih =>
    intro t hd hin
    rw [List.nodup_cons] at hd
    obtain ⟨t1, e1, l1, h1⟩ := hf t x (hin x (by simp))
    obtain ⟨t2, e2, l2, h2⟩ := ih t1 hd.2 fun y hy => by rw [l1]; exact hin y (List.mem_cons_of_mem _ hy)
    refine ⟨t2, by rw [List.foldlM_cons, e1]; exact e2, by rw [l2, l1], fun y => ?_⟩
    rw [h2, h1]
    by_cases e : y = x
    · subst e
      rw [if_neg hd.1, if_pos rfl, if_pos (by simp)]
    · rw [if_neg e]
      by_cases hy : y ∈ dp
      · rw [if_pos hy, if_pos (List.mem_cons_of_mem _ hy)]
      · rw [if_neg hy, if_neg (by simp [e, hy])]

theorem width_mono {n n' : Nat} (h : n ≤ n') : nodeWidth n ≤ nodeWidth n' := by
  unfold nodeWidth; split <;> split <;> omega

/-! ### Removing -/

theorem removeLeaf_ok {t : Tree M} {n j : Nat} (hs : Size t n) (hj : j < n) :
    ∃ t0, removeLeaf t j = some t0 ∧ t0.length = t.length ∧
      ∀ y, nd t0 y = if y = leafToNode j ∨ y ∈ directPath j n then .blank else nd t y := by
  obtain ⟨h1, h2, -⟩ := (C21_u32 hs.pos hs.cap).2.2.2.2.2 j hj
  have hx : leafToNode j < t.length := by rw [← hs.width]; exact leaf_in hj
  obtain ⟨t0, e, l, h⟩ := foldlM_nd (f := fun t x => setC t x .blank) (g := fun _ => (.blank : Node M))
    (fun t x hx => ⟨t.set x .blank, setC_some hx, by rw [List.length_set], fun y => nd_set hx⟩)
    (directPath j n) (t.set (leafToNode j) .blank) (dp_nodup hj)
    (fun x hx => by rw [List.length_set, ← hs.width]; exact ((mem_dp hj).1 hx).1)
  refine ⟨t0, ?_, by rw [l, List.length_set], fun y => ?_⟩
  · unfold removeLeaf
    rw [h1, hs.leaves, h2]
    simp only [Option.bind_eq_bind, Option.bind_some]
    rw [setC_some hx]
    exact e
  · rw [h, nd_set hx]
    by_cases e1 : y = leafToNode j
    · rw [if_pos e1, if_pos (Or.inl e1 : y = leafToNode j ∨ y ∈ directPath j n), ite_self]
    · by_cases e2 : y ∈ directPath j n
      · rw [if_pos e2, if_pos (.inr e2)]
      · rw [if_neg e2, if_neg e1, if_neg (by rintro (h | h) <;> contradiction)]

theorem remove_shape {t t0 : Tree M} {n j : Nat} (hs : Shape t n) (hj : j < n) (hl : t0.length = t.length)
    (h : ∀ y, nd t0 y = if y = leafToNode j ∨ y ∈ directPath j n then .blank else nd t y) : Shape t0 n := by
  refine ⟨hs.toSize.of_len hl, fun x l hx => ?_, fun x pk um hx => ?_, fun x l hx => ?_⟩
  · rw [h] at hx; split at hx
    · cases hx
    · exact hs.inner x l hx
  · rw [h] at hx; split at hx
    · cases hx
    · exact hs.outer x pk um hx
  · rw [h] at hx
    split at hx
    · simp [Node.unmerged] at hx
    · rename_i hne
      obtain ⟨h1, h2⟩ := hs.unmerged x l hx
      refine ⟨h1, ?_⟩
      rw [h, if_neg]
      · exact h2
      · rintro (e | e)
        · have e' : l = j := by unfold leafToNode at e; omega
          subst e'
          apply hne
          by_cases h0 : level x = 0
          · have hb : nd t x ≠ .blank := by
              intro e; rw [e] at hx; simp [Node.unmerged] at hx
            obtain ⟨i, rfl⟩ := eq_leaf_of_level h0
            rw [cov_leaf (lt_of_leaf_in (hs.lt hb))] at h1
            exact .inl (by rw [h1])
          · have hb : nd t x ≠ .blank := by
              intro e; rw [e] at hx; simp [Node.unmerged] at hx
            exact .inr ((mem_dp hj).2 ⟨hs.lt hb, h0, h1⟩)
        · exact dp_not_leaf hj e l rfl

theorem remove_keys {t t0 : Tree M} {n j : Nat} (hg : GoodKeys P t)
    (h : ∀ y, nd t0 y = if y = leafToNode j ∨ y ∈ directPath j n then .blank else nd t y) : GoodKeys P t0 := by
  intro x pk hx
  rw [h] at hx
  split at hx
  · simp [Node.pk?] at hx
  · exact hg x pk hx

theorem remove_holds {t t0 : Tree M} {n j i : Nat} {own : Own M} (hh : Holds P t n i own)
    (h : ∀ y, nd t0 y = if y = leafToNode j ∨ y ∈ directPath j n then .blank else nd t y) : Holds P t0 n i own := by
  refine ⟨hh.above, fun r s hr hb => ?_, hh.leaf, fun a hb h0 hc hu => ?_⟩
  · rw [h] at hb ⊢
    split at hb
    · exact absurd rfl hb
    · rename_i hne; rw [if_neg hne]; exact hh.fits r s hr hb
  · rw [h] at hb hu
    split at hb
    · exact absurd rfl hb
    · rename_i hne; rw [if_neg hne] at hu; exact hh.inner a hb h0 hc hu

/-! ### Adding -/

def markNode (index : Nat) : Node M → Node M
  | .parent pk um => .parent pk (if um.contains index then um else um ++ [index])
  | v => v

theorem markOne_ok (index : Nat) (t : Tree M) (x : Nat) (hx : x < t.length) :
    ∃ t', markOne index t x = some t' ∧ t'.length = t.length ∧
      ∀ y, nd t' y = if y = x then markNode index (nd t x) else nd t y := by
  unfold markOne
  rw [getElem?_nd hx]
  cases h : nd t x with
  | blank => exact ⟨t, rfl, rfl, fun y => by split <;> simp_all [markNode]⟩
  | leaf l => exact ⟨t, rfl, rfl, fun y => by split <;> simp_all [markNode]⟩
  | parent pk um =>
    dsimp only
    by_cases hc : um.contains index = true
    · rw [if_pos hc]
      refine ⟨t, rfl, rfl, fun y => ?_⟩
      split
      · rename_i e; rw [e, h, markNode, if_pos hc]
      · rfl
    · rw [if_neg hc]
      refine ⟨_, rfl, by rw [List.length_set], fun y => ?_⟩
      rw [nd_set hx, markNode, if_neg hc]

theorem freeSlot_spec {t : Tree M} {n : Nat} (hs : Size t n) :
    freeSlot t ≤ n ∧ nd t (leafToNode (freeSlot t)) = .blank := by
  unfold freeSlot
  rw [hs.leaves]
  cases h : (List.range n).find? (blankAt t) with
  | none =>
    rw [Option.getD_none]
    refine ⟨le_rfl, nd_out ?_⟩
    rw [hs.len]; unfold leafToNode; omega
  | some q =>
    rw [Option.getD_some]
    have h1 := List.mem_of_find?_eq_some h
    have h2 := List.find?_some h
    rw [List.mem_range] at h1
    refine ⟨by omega, ?_⟩
    have hx : leafToNode q < t.length := by rw [← hs.width]; exact leaf_in h1
    unfold blankAt at h2
    rw [getElem?_nd hx] at h2
    cases e : nd t (leafToNode q) with
    | blank => rfl
    | leaf l => rw [e] at h2; simp at h2
    | parent pk um => rw [e] at h2; simp at h2

theorem nd_append_blank (t : Tree M) (k y : Nat) : nd (t ++ List.replicate k .blank) y = nd t y := by
  unfold nd
  rw [List.getElem?_append]
  split
  · rfl
  · rw [List.getElem?_eq_none (l := t) (by omega), Option.getD_none, List.getElem?_replicate]
    split <;> rfl

/-- What `add_leaf_at` does to the tree. -/
structure Added (t t0 : Tree M) (n' q : Nat) (leaf : LeafNode M) : Prop where
  nodes : ∀ y, nd t0 y = if y = leafToNode q then .leaf { leaf with index := q }
    else if y ∈ directPath q n' then markNode q (nd t y) else nd t y

theorem addLeafAt_ok {t : Tree M} {n q : Nat} (hs : Size t n) (hq : q ≤ n) (hcap : max n (q + 1) ≤ 2 ^ 31) (leaf : LeafNode M) :
    ∃ t0, addLeafAt t q leaf = some t0 ∧ Size t0 (max n (q + 1)) ∧ Added t t0 (max n (q + 1)) q leaf := by
  have hpos := hs.pos
  have hlen := hs.len
  have hn' : q < max n (q + 1) := by omega
  obtain ⟨h1, h2, -⟩ := (C21_u32 (n := max n (q + 1)) (by omega) hcap).2.2.2.2.2 q hn'
  set t1 : Tree M := if t.length < nodeWidth (q + 1) then t ++ List.replicate (nodeWidth (q + 1) - t.length) .blank else t with ht1
  have hw : nodeWidth (q + 1) = 2 * q + 1 := by rw [width_eq (by omega)]; omega
  have hl1 : t1.length = 2 * max n (q + 1) - 1 := by
    rw [ht1]
    split
    · rw [List.length_append, List.length_replicate]; omega
    · omega
  have hnd1 : ∀ y, nd t1 y = nd t y := by
    intro y
    rw [ht1]
    split
    · exact nd_append_blank _ _ _
    · rfl
  have hx : leafToNode q < t1.length := by rw [hl1]; unfold leafToNode; omega
  have hs2 : Size (t1.set (leafToNode q) (.leaf { leaf with index := q })) (max n (q + 1)) :=
    ⟨by rw [List.length_set, hl1], by omega, hcap⟩
  obtain ⟨t0, e, l, h⟩ := foldlM_nd (f := markOne q) (g := markNode q) (markOne_ok q)
    (directPath q (max n (q + 1))) (t1.set (leafToNode q) (.leaf { leaf with index := q })) (dp_nodup hn')
    (fun x hx => by rw [← hs2.width]; exact ((mem_dp hn').1 hx).1)
  refine ⟨t0, ?_, hs2.of_len l, ⟨fun y => ?_⟩⟩
  · unfold addLeafAt
    rw [if_pos (by omega), nodeWidthC_eq (by omega), h1]
    simp only [Option.bind_eq_bind, Option.bind_some]
    rw [← ht1, setC_some hx, Option.bind_some, hs2.leaves, h2, Option.bind_some]
    exact e
  · rw [h, nd_set hx, hnd1]
    by_cases e1 : y = leafToNode q
    · rw [if_pos e1, if_pos e1, if_neg]
      rw [e1]
      exact fun h => dp_not_leaf hn' h q rfl
    · rw [if_neg e1, if_neg e1]

theorem markNode_unmerged {q l : Nat} {v : Node M} (h : l ∈ (markNode q v).unmerged) :
    l ∈ v.unmerged ∨ l = q ∧ ∃ pk um, v = .parent pk um := by
  cases v with
  | blank => exact .inl h
  | leaf _ => exact .inl h
  | parent pk um =>
    rw [markNode, Node.unmerged] at h
    split at h
    · exact .inl h
    · rcases List.mem_append.1 h with h | h
      · exact .inl h
      · exact .inr ⟨List.mem_singleton.1 h, pk, um, rfl⟩

theorem markNode_unmerged_old {q l : Nat} {v : Node M} (h : l ∈ v.unmerged) : l ∈ (markNode q v).unmerged := by
  cases v with
  | blank => exact h
  | leaf _ => exact h
  | parent pk um =>
    rw [markNode, Node.unmerged]
    split
    · exact h
    · exact List.mem_append_left _ h

theorem markNode_self {q : Nat} {v : Node M} (h : ∃ pk um, v = .parent pk um) : q ∈ (markNode q v).unmerged := by
  obtain ⟨pk, um, rfl⟩ := h
  rw [markNode, Node.unmerged]
  split
  · rename_i h; exact List.contains_iff_mem.1 h
  · simp

theorem markNode_pk (q : Nat) (v : Node M) : (markNode q v).pk? = v.pk? := by cases v <;> rfl

theorem markNode_blank {q : Nat} {v : Node M} : markNode q v = .blank ↔ v = .blank := by cases v <;> simp [markNode]

theorem markNode_leaf {q : Nat} {v : Node M} {l : LeafNode M} (h : markNode q v = .leaf l) : v = .leaf l := by
  cases v <;> simp_all [markNode]

theorem markNode_parent {q : Nat} {v : Node M} {pk : M} {um : List Nat} (h : markNode q v = .parent pk um) :
    ∃ um', v = .parent pk um' := by
  cases v <;> simp_all [markNode]

theorem Added.blank {t t0 : Tree M} {n' q : Nat} {leaf : LeafNode M} (h : Added t t0 n' q leaf) {y : Nat}
    (hy : y ≠ leafToNode q) : nd t0 y = .blank ↔ nd t y = .blank := by
  rw [h.nodes, if_neg hy]
  split
  · exact markNode_blank
  · exact Iff.rfl

theorem Added.pk {t t0 : Tree M} {n' q : Nat} {leaf : LeafNode M} (h : Added t t0 n' q leaf) {y : Nat}
    (hy : y ≠ leafToNode q) : (nd t0 y).pk? = (nd t y).pk? := by
  rw [h.nodes, if_neg hy]
  split
  · exact markNode_pk _ _
  · rfl

theorem leaf_inj {i j : Nat} (h : leafToNode i = leafToNode j) : i = j := by unfold leafToNode at h; omega

theorem add_shape {t t0 : Tree M} {n q : Nat} {leaf : LeafNode M} (hs : Shape t n)
    (hs0 : Size t0 (max n (q + 1))) (h : Added t t0 (max n (q + 1)) q leaf) : Shape t0 (max n (q + 1)) := by
  have hq' : q < max n (q + 1) := by omega
  refine ⟨hs0, fun x l hx => ?_, fun x pk um hx => ?_, fun x l hx => ?_⟩
  · rw [h.nodes] at hx
    split at hx
    · rename_i e; rw [e]; exact leaf_level q
    · split at hx
      · exact hs.inner x l (markNode_leaf hx)
      · exact hs.inner x l hx
  · rw [h.nodes] at hx
    split at hx
    · cases hx
    · split at hx
      · obtain ⟨um', e⟩ := markNode_parent hx
        exact hs.outer x pk um' e
      · exact hs.outer x pk um hx
  · have key : l ∈ (nd t x).unmerged → Cov (max n (q + 1)) x l ∧ nd t0 (leafToNode l) ≠ .blank := by
      intro hl
      obtain ⟨h1, h2⟩ := hs.unmerged x l hl
      refine ⟨cov_grow (by omega) h1, ?_⟩
      by_cases e : leafToNode l = leafToNode q
      · rw [h.nodes, if_pos e]; simp
      · rw [Ne, h.blank e]; exact h2
    rw [h.nodes] at hx
    split at hx
    · simp [Node.unmerged] at hx
    · split at hx
      · rename_i hdp
        rcases markNode_unmerged hx with hx | ⟨rfl, -⟩
        · exact key hx
        · refine ⟨((mem_dp hq').1 hdp).2.2, ?_⟩
          rw [h.nodes, if_pos rfl]; simp
      · exact key hx

theorem add_keys {t t0 : Tree M} {n' q : Nat} {leaf : LeafNode M} (hg : GoodKeys P t) (hok : P.okPk leaf.pk = true)
    (h : Added t t0 n' q leaf) : GoodKeys P t0 := by
  intro x pk hx
  by_cases e : x = leafToNode q
  · rw [h.nodes, if_pos e, Node.pk?, Option.some.injEq] at hx
    rw [← hx]; exact hok
  · rw [h.pk e] at hx
    exact hg x pk hx

theorem add_holds {t t0 : Tree M} {n q i : Nat} {leaf : LeafNode M} {own : Own M} (hi : i < n) (hiq : i ≠ q)
    (hh : Holds P t n i own) (h : Added t t0 (max n (q + 1)) q leaf) : Holds P t0 (max n (q + 1)) i own := by
  have hne : ∀ r, Cov (max n (q + 1)) r i → r ≠ leafToNode q := by
    rintro r hc rfl
    rw [cov_leaf (by omega)] at hc
    exact hiq hc
  refine ⟨fun r s hr => cov_grow (by omega) (hh.above r s hr), fun r s hr hb => ?_, hh.leaf, fun a hb h0 hc hu => ?_⟩
  · have hr' := hne r (cov_grow (by omega) (hh.above r s hr))
    rw [h.pk hr']
    exact hh.fits r s hr (fun e => hb ((h.blank hr').2 e))
  · have ha := hne a hc
    refine hh.inner a (fun e => hb ((h.blank ha).2 e)) h0 (cov_shrink hc hi) fun hm => hu ?_
    rw [h.nodes, if_neg ha]
    split
    · exact markNode_unmerged_old hm
    · exact hm

/-! ### Re-keying -/

/-- The tree after `i` has re-keyed its path with `s`. -/
def rekey (t : Tree M) (n i : Nat) (s : M) (l : LeafNode M) : Tree M :=
  instT P s (directPath i n) (t.set (leafToNode i) (.leaf { l with pk := P.pub s }))

/-- Root secret of the path. -/
def rootOf (n i : Nat) (s : M) : M :=
  if directPath i n = [] then P.next s else P.next^[(directPath i n).length] s

/-- Secrets of the committer. -/
def ownOf (n i : Nat) (s : M) : Own M := setAll P s (directPath i n) (Own.set (fun _ => none) (leafToNode i) s)

theorem generate_ok {t : Tree M} {n i : Nat} (hs : Shape t n) (hg : GoodKeys P t) (hi : i < n) {l : LeafNode M}
    (hl : nd t (leafToNode i) = .leaf l) (s : M) (rnd : Nat → Nat → Nat) :
    ∃ us, generateUpdatePath P t i s rnd = (rekey P t n i s l, .ok (⟨i, P.pub s, us⟩, rootOf P n i s, ownOf P n i s)) ∧
      Honest P t n s (directPath i n) (copath i n) us := by
  obtain ⟨h1, h2, h3⟩ := (C21_u32 hs.pos hs.cap).2.2.2.2.2 i hi
  have hx : leafToNode i < t.length := by rw [← hs.toSize.width]; exact leaf_in hi
  obtain ⟨us, e, hh⟩ := genLoop_ok P hs hg rnd (directPath i n) (copath i n) 0 s
    (t.set (leafToNode i) (.leaf { l with pk := P.pub s })) (Own.set (fun _ => none) (leafToNode i) s)
    (by rw [List.length_set]) (C21_path_length hi).2.symm (fun x hx => ((mem_dp hi).1 hx).1) (fun c hc => cp_in hi hc)
    (fun x hx c hc => dp_not_sub hi (.inr hx) hc)
    (fun c hc y hy hyc => by
      rw [nd_set hx, if_neg]
      intro e
      exact dp_not_sub hi (.inl e) hc hyc)
  refine ⟨us, ?_, hh⟩
  unfold generateUpdatePath
  rw [hs.toSize.leaves, h1, h2, h3]
  dsimp only
  rw [getElem?_nd hx, hl]
  dsimp only
  rw [e]
  rfl

section
variable {t : Tree M} {n i : Nat} (hs : Shape t n) (hi : i < n) {l : LeafNode M} (hl : nd t (leafToNode i) = .leaf l) (s : M)
include hs hi

omit hs hi in
theorem rekey_length : (rekey P t n i s l).length = t.length := by
  unfold rekey; rw [instT_length, List.length_set]

theorem rekey_leaf : nd (rekey P t n i s l) (leafToNode i) = .leaf { l with pk := P.pub s } := by
  have hx : leafToNode i < t.length := by rw [← hs.toSize.width]; exact leaf_in hi
  unfold rekey
  rw [nd_instT_out P (fun x hx => by rw [List.length_set, ← hs.toSize.width]; exact ((mem_dp hi).1 hx).1)
    (fun h => dp_not_leaf hi h i rfl), nd_set hx, if_pos rfl]

theorem rekey_path {y : Nat} {σ : M} (h : secAt P s (directPath i n) y = some σ) :
    nd (rekey P t n i s l) y = .parent (P.pub σ) [] := by
  unfold rekey
  exact nd_instT_in P (dp_nodup hi)
    (fun x hx => by rw [List.length_set, ← hs.toSize.width]; exact ((mem_dp hi).1 hx).1) h

theorem rekey_other {y : Nat} (h1 : y ≠ leafToNode i) (h2 : y ∉ directPath i n) : nd (rekey P t n i s l) y = nd t y := by
  have hx : leafToNode i < t.length := by rw [← hs.toSize.width]; exact leaf_in hi
  unfold rekey
  rw [nd_instT_out P (fun x hx => by rw [List.length_set, ← hs.toSize.width]; exact ((mem_dp hi).1 hx).1) h2,
    nd_set hx, if_neg h1]

theorem rekey_cases (y : Nat) : (y = leafToNode i ∧ nd (rekey P t n i s l) y = .leaf { l with pk := P.pub s }) ∨
    (y ∈ directPath i n ∧ ∃ σ, secAt P s (directPath i n) y = some σ ∧ nd (rekey P t n i s l) y = .parent (P.pub σ) []) ∨
    (y ≠ leafToNode i ∧ y ∉ directPath i n ∧ nd (rekey P t n i s l) y = nd t y) := by
  by_cases e1 : y = leafToNode i
  · exact .inl ⟨e1, by rw [e1]; exact rekey_leaf P hs hi s⟩
  · by_cases e2 : y ∈ directPath i n
    · obtain ⟨σ, hσ⟩ := Option.isSome_iff_exists.1 ((secAt_isSome P (cur := s)).2 e2)
      exact .inr (.inl ⟨e2, σ, hσ, rekey_path P hs hi s hσ⟩)
    · exact .inr (.inr ⟨e1, e2, rekey_other P hs hi s e1 e2⟩)

include hl

/-- Leaves stay where they are. -/
theorem rekey_leaf_blank (j : Nat) : nd (rekey P t n i s l) (leafToNode j) = .blank ↔ nd t (leafToNode j) = .blank := by
  rcases rekey_cases (l := l) P hs hi s (leafToNode j) with ⟨e, h⟩ | ⟨e, _⟩ | ⟨_, _, h⟩
  · rw [h, e, hl]; simp
  · exact absurd rfl (dp_not_leaf hi e j)
  · rw [h]

theorem rekey_shape : Shape (rekey P t n i s l) n := by
  refine ⟨hs.toSize.of_len (rekey_length P s), fun x l' hx => ?_, fun x pk um hx => ?_, fun x l' hx => ?_⟩
  · rcases rekey_cases (l := l) P hs hi s x with ⟨e, h⟩ | ⟨e, σ, _, h⟩ | ⟨_, _, h⟩
    · rw [e]; exact leaf_level i
    · rw [h] at hx; cases hx
    · rw [h] at hx; exact hs.inner x l' hx
  · rcases rekey_cases (l := l) P hs hi s x with ⟨e, h⟩ | ⟨e, σ, _, h⟩ | ⟨_, _, h⟩
    · rw [h] at hx; cases hx
    · exact ((mem_dp hi).1 e).2.1
    · rw [h] at hx; exact hs.outer x pk um hx
  · rcases rekey_cases (l := l) P hs hi s x with ⟨e, h⟩ | ⟨e, σ, _, h⟩ | ⟨_, _, h⟩
    · rw [h] at hx; simp [Node.unmerged] at hx
    · rw [h] at hx; simp [Node.unmerged] at hx
    · rw [h] at hx
      obtain ⟨h1, h2⟩ := hs.unmerged x l' hx
      exact ⟨h1, fun e => h2 ((rekey_leaf_blank P hs hi hl s l').1 e)⟩

omit hl in
theorem rekey_keys (hP : Lawful P) (hg : GoodKeys P t) : GoodKeys P (rekey P t n i s l) := by
  intro x pk hx
  rcases rekey_cases (l := l) P hs hi s x with ⟨e, h⟩ | ⟨e, σ, _, h⟩ | ⟨_, _, h⟩
  · rw [h, Node.pk?, Option.some.injEq] at hx
    rw [← hx]; exact hP.okPub s
  · rw [h, Node.pk?, Option.some.injEq] at hx
    rw [← hx]; exact hP.okPub σ
  · rw [h] at hx; exact hg x pk hx

omit hl in
/-- The committer's secrets fit the new tree. -/
theorem rekey_own : Holds P (rekey P t n i s l) n i (ownOf P n i s) := by
  have heq : ∀ y, ownOf P n i s y = if y ∈ directPath i n then secAt P s (directPath i n) y
      else if y = leafToNode i then some s else none := fun y => by
    unfold ownOf; rw [setAll_eq P (dp_nodup hi)]; rfl
  refine ⟨fun r σ hr => ?_, fun r σ hr hb => ?_, ?_, fun a hb h0 hc hu => ?_⟩
  · rw [heq] at hr
    split at hr
    · rename_i h; exact ((mem_dp hi).1 h).2.2
    · split at hr
      · rename_i h; rw [h, cov_leaf hi]
      · cases hr
  · rw [heq] at hr
    split at hr
    · rw [rekey_path P hs hi s hr]; rfl
    · split at hr
      · rename_i h
        rw [Option.some.injEq] at hr
        rw [h, rekey_leaf P hs hi s, ← hr]; rfl
      · cases hr
  · rw [heq, if_neg (fun h => dp_not_leaf hi h i rfl), if_pos rfl]; rfl
  · have hs' := rekey_length (t := t) (n := n) (i := i) (l := l) P s
    have ha : a < nodeWidth n := by
      rw [hs.toSize.width, ← hs']
      by_contra hx
      exact hb (nd_out (by omega))
    have hm := (mem_dp hi).2 ⟨ha, h0, hc⟩
    rw [heq, if_pos hm]
    exact (secAt_isSome P).2 hm

omit hl in
/-- Another member's secrets fit the new tree once it has learned what it can. -/
theorem rekey_holds {j : Nat} (hji : j ≠ i) {own own' : Own M} (hh : Holds P t n j own)
    (h : ∀ y, own' y = if y ∈ directPath i n ∧ Cov n y j then secAt P s (directPath i n) y else own y) :
    Holds P (rekey P t n i s l) n j own' := by
  refine ⟨fun r σ hr => ?_, fun r σ hr hb => ?_, ?_, fun a hb h0 hc hu => ?_⟩
  · rw [h] at hr
    split at hr
    · rename_i e; exact e.2
    · exact hh.above r σ hr
  · rw [h] at hr
    split at hr
    · rw [rekey_path P hs hi s hr]; rfl
    · rename_i hne
      have hc := hh.above r σ hr
      have e1 : r ≠ leafToNode i := by
        rintro rfl; rw [cov_leaf hi] at hc; exact hji hc
      have e2 : r ∉ directPath i n := fun e => hne ⟨e, hc⟩
      rw [rekey_other P hs hi s e1 e2] at hb ⊢
      exact hh.fits r σ hr hb
  · rw [h, if_neg (fun e => dp_not_leaf hi e.1 j rfl)]
    exact hh.leaf
  · rw [h]
    split
    · rename_i e; exact (secAt_isSome P).2 e.1
    · rename_i hne
      have e1 : a ≠ leafToNode i := by rintro rfl; exact h0 (leaf_level i)
      have e2 : a ∉ directPath i n := fun e => hne ⟨e, hc⟩
      rw [rekey_other P hs hi s e1 e2] at hb hu
      exact hh.inner a hb h0 hc hu

end

/-- Another member processes the honest update. -/
theorem apply_ok (hP : Lawful P) {t : Tree M} {n i j : Nat} (hs : Shape t n) (hi : i < n) {l : LeafNode M}
    (hl : nd t (leafToNode i) = .leaf l) (hj : j < n) (hji : j ≠ i) (hjl : nd t (leafToNode j) ≠ .blank) {s : M}
    {us : List (UpdNode M)} (hho : Honest P t n s (directPath i n) (copath i n) us) {own : Own M} (hh : Holds P t n j own) :
    ∃ own', applyUpdatePath P t ⟨i, P.pub s, us⟩ own = (rekey P t n i s l, .ok (rootOf P n i s, own')) ∧
      ∀ y, own' y = if y ∈ directPath i n ∧ Cov n y j then secAt P s (directPath i n) y else own y := by
  obtain ⟨h1, h2, h3⟩ := (C21_u32 hs.pos hs.cap).2.2.2.2.2 i hi
  have hx : leafToNode i < t.length := by rw [← hs.toSize.width]; exact leaf_in hi
  have hsz : Size (rekey P t n i s l) n := hs.toSize.of_len (rekey_length P s)
  obtain ⟨own', e1, e2⟩ := findOpen_ok P hP (t := rekey P t n i s l) hs hsz hj hh hjl (nodeWidth n) (leafToNode i) s us
    (leaf_in hi) (fuel_ok hs.pos) (by rw [cov_leaf hi]; exact hji) hho
    (fun c hc y hy hyc => rekey_other P hs hi s (fun e => dp_not_sub hi (.inl e) hc hyc)
      (fun e => dp_not_sub hi (.inr e) hc hyc))
  refine ⟨own', ?_, e2⟩
  unfold applyUpdatePath
  dsimp only
  rw [hs.toSize.leaves, h1, h2, h3]
  dsimp only
  rw [if_neg (by rw [not_not]; exact honest_length P _ _ _ _ hho), getElem?_nd hx, hl]
  dsimp only
  rw [install_ok P _ _ _ s _ hho (fun x hx => by rw [List.length_set, ← hs.toSize.width]; exact ((mem_dp hi).1 hx).1)]
  have hne : directPath i n ≠ [] := by
    intro e
    have := (C21_direct_path hi).2.2.2.2
    rw [e] at this
    simp only [List.getLast?_singleton, Option.some.injEq] at this
    have h4 : Cov n (root n) j := by rw [cov_root hs.pos]; exact hj
    rw [← this, cov_leaf hi] at h4
    exact hji h4
  unfold rootOf
  rw [if_neg hne]
  exact congrArg (Prod.mk _) e1

/-- A joiner starts from the secret of the lowest common node. -/
theorem join_path {n i q : Nat} (hi : i < n) (hq : q < n) (hiq : q ≠ i) (s : M) (own : Own M) :
    ∃ lca σ, (directPath i n).find? (fun x => (directPath q n).contains x) = some lca ∧
      lca ∈ directPath i n ∧ lca ∈ directPath q n ∧
      secAt P s (directPath i n) lca = some (P.next σ) ∧
      (ratchetUp P (P.next σ) ((directPath q n).drop ((directPath q n).idxOf lca)) own).1 = rootOf P n i s ∧
      ∀ y, (ratchetUp P (P.next σ) ((directPath q n).drop ((directPath q n).idxOf lca)) own).2 y =
        if y ∈ directPath i n ∧ y ∈ directPath q n then secAt P s (directPath i n) y else own y := by
  have hn : 1 ≤ n := by omega
  have hroot : ∀ k, k < n → k ≠ (if k = i then q else i) → root n ∈ directPath k n := by
    intro k hk hne
    have h1 := (C21_path_is_ancestors (a := root n) hk).2 ⟨root_lt hn, ((C21_root_covers hn).1 k).2 hk⟩
    rcases List.mem_cons.1 h1 with e | e
    · exfalso
      have hz : (if k = i then q else i) < n := by split <;> assumption
      have h4 : Cov n (root n) (if k = i then q else i) := by rw [cov_root hn]; exact hz
      rw [e, cov_leaf hk] at h4
      exact hne h4.symm
    · exact e
  have hri : root n ∈ directPath i n := hroot i hi (by rw [if_pos rfl]; exact fun e => hiq e.symm)
  have hrq : root n ∈ directPath q n := hroot q hq (by rw [if_neg hiq]; exact hiq)
  cases hfind : (directPath i n).find? (fun x => (directPath q n).contains x) with
  | none =>
    rw [List.find?_eq_none] at hfind
    exact absurd (List.contains_iff_mem.2 hrq) (hfind _ hri)
  | some lca =>
    obtain ⟨hp, pre, suf, hdp, hpre⟩ := List.find?_eq_some_iff_append.1 hfind
    have hlq : lca ∈ directPath q n := List.contains_iff_mem.1 hp
    have hli : lca ∈ directPath i n := by rw [hdp]; simp
    have hndi := dp_nodup hi
    have hndq := dp_nodup hq
    have hsi : suf = pathFrom n (nodeWidth n) lca :=
      pathFrom_suffix hn _ _ pre lca suf (leaf_in hi) (fuel_ok hn) hdp
    obtain ⟨pre', suf', hdq, hpre'⟩ : ∃ pre' suf', directPath q n = pre' ++ lca :: suf' ∧ lca ∉ pre' := by
      obtain ⟨a, b, h1, h2⟩ := List.eq_append_cons_of_mem hlq
      exact ⟨a, b, h1, h2⟩
    have hsq : suf' = pathFrom n (nodeWidth n) lca :=
      pathFrom_suffix hn _ _ pre' lca suf' (leaf_in hq) (fuel_ok hn) hdq
    have hdrop : (directPath q n).drop ((directPath q n).idxOf lca) = lca :: suf := by
      rw [hdq, List.idxOf_append_of_notMem hpre', List.idxOf_cons_self, Nat.add_zero, List.drop_left, hsq, hsi]
    have hpren : lca ∉ pre := by
      rw [hdp] at hndi
      rw [List.nodup_append] at hndi
      intro h
      exact hndi.2.2 _ h _ (by simp) rfl
    refine ⟨lca, P.next^[pre.length] s, rfl, hli, hlq, ?_, ?_, ?_⟩
    · rw [hdp, secAt_append P hpren, secAt_cons, if_pos rfl]
    · rw [hdrop, ratchetUp_eq]
      unfold rootOf
      rw [if_neg (by rw [hdp]; simp), hdp, ← Function.iterate_add_apply, List.length_append]
      rw [List.length_cons, Nat.add_comm]
    · intro y
      rw [hdrop, ratchetUp_eq]
      dsimp only
      have hnds : (lca :: suf).Nodup := by
        rw [hdp] at hndi
        exact (List.nodup_append.1 hndi).2.1
      rw [setAll_eq P hnds]
      by_cases hy : y ∈ lca :: suf
      · have hyi : y ∈ directPath i n := by rw [hdp]; exact List.mem_append_right _ hy
        have hyq : y ∈ directPath q n := by rw [hdq, hsq, ← hsi]; exact List.mem_append_right _ hy
        have hyp : y ∉ pre := by
          intro h
          have := hpre y h
          simp only [Bool.not_eq_true', ] at this
          rw [List.contains_iff_mem.2 hyq] at this
          cases this
        rw [if_pos hy, if_pos ⟨hyi, hyq⟩, hdp, secAt_append P hyp]
      · rw [if_neg hy, if_neg]
        rintro ⟨h1, h2⟩
        rw [hdp] at h1
        rcases List.mem_append.1 h1 with h1 | h1
        · have := hpre y h1
          simp only [Bool.not_eq_true'] at this
          rw [List.contains_iff_mem.2 h2] at this
          cases this
        · exact hy h1

/-- The joiner's secrets fit the new tree: `t0` is the tree with the joiner's leaf, before the re-key. -/
theorem join_holds {t t0 : Tree M} {n i q : Nat} (hs : Shape t0 n) (hi : i < n) (hq : q < n) (hiq : q ≠ i)
    {l : LeafNode M} {js s : M} {leaf : LeafNode M} (hpk : leaf.pk = P.pub js) (ha : Added t t0 n q leaf) {own : Own M}
    (h : ∀ y, own y = if y ∈ directPath i n ∧ y ∈ directPath q n then secAt P s (directPath i n) y
      else if y = leafToNode q then some js else none) : Holds P (rekey P t0 n i s l) n q own := by
  refine ⟨fun r σ hr => ?_, fun r σ hr hb => ?_, ?_, fun a hb h0 hc hu => ?_⟩
  · rw [h] at hr
    split at hr
    · rename_i e; exact ((mem_dp hq).1 e.2).2.2
    · split at hr
      · rename_i e; rw [e, cov_leaf hq]
      · cases hr
  · rw [h] at hr
    split at hr
    · rw [rekey_path P hs hi s hr]; rfl
    · split at hr
      · rename_i e
        rw [Option.some.injEq] at hr
        rw [e, rekey_other P hs hi s (fun e => hiq (leaf_inj e)) (fun e => dp_not_leaf hi e q rfl), ha.nodes, if_pos rfl, ← hr]
        exact congrArg some hpk
      · cases hr
  · rw [h, if_neg (fun e => dp_not_leaf hi e.1 q rfl), if_pos rfl]; rfl
  · have hlen := rekey_length (t := t0) (n := n) (i := i) (l := l) P s
    have hain : a < nodeWidth n := by
      rw [hs.toSize.width, ← hlen]
      by_contra hx
      exact hb (nd_out (by omega))
    have haq := (mem_dp hq).2 ⟨hain, h0, hc⟩
    by_cases hai : a ∈ directPath i n
    · rw [h, if_pos ⟨hai, haq⟩]; exact (secAt_isSome P).2 hai
    · exfalso
      have e1 : a ≠ leafToNode i := by rintro rfl; exact h0 (leaf_level i)
      have e2 : a ≠ leafToNode q := by rintro rfl; exact h0 (leaf_level q)
      rw [rekey_other P hs hi s e1 hai] at hb hu
      apply hu
      have hshape := hs.inner a
      rw [ha.nodes, if_neg e2, if_pos haq] at hb hu ⊢
      refine markNode_self ?_
      cases hv : nd t a with
      | blank => rw [hv] at hb; exact absurd rfl hb
      | leaf l' =>
        exfalso
        refine h0 (hshape l' ?_)
        rw [ha.nodes, if_neg e2, if_pos haq, hv]; rfl
      | parent pk um => exact ⟨pk, um, rfl⟩

end Verif.TreeKem

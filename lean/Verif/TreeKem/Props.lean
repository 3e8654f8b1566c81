import Verif.TreeKem.Agree
import Verif.TreeKem.Sym
/-
Properties C23, C24 and C27.
-/
namespace Verif.TreeKem

open Verif.TreeMath

variable {M : Type}

/-- `l` is a member's leaf in the tree. -/
def Occupied (t : Tree M) (l : Nat) : Prop := ∃ lf, t[2 * l]? = some (.leaf lf)

/-- What a resolution should be: `rs` are non-blank nodes below `x`, and reach every member below `x` directly or through
an inner node that does not list it as unmerged. -/
def Covers (t : Tree M) (n x : Nat) (rs : List Nat) : Prop :=
  (∀ r ∈ rs, (∃ v, t[r]? = some v ∧ v ≠ .blank) ∧ ∀ l, Cov n r l → Cov n x l) ∧
    ∀ l, Cov n x l → Occupied t l →
      2 * l ∈ rs ∨ ∃ r ∈ rs, ∃ pk um, t[r]? = some (.parent pk um) ∧ Cov n r l ∧ l ∉ um

theorem nd_get {t : Tree M} {x : Nat} (h : nd t x ≠ .blank) : t[x]? = some (nd t x) := by
  apply getElem?_nd
  by_contra hx
  exact h (nd_out (by omega))

theorem shape_covers {t : Tree M} {n : Nat} (hs : Shape t n) {x : Nat} (hx : x < t.length) :
    ∃ rs, resolution t x = some rs ∧ Covers t n x rs := by
  rw [← hs.toSize.width] at hx
  refine ⟨_, resolution_eq hs.toSize hx, fun r hr => ?_, fun l hl ho => ?_⟩
  · obtain ⟨h1, h2, h3⟩ := resP_mem hs _ _ _ hx hr
    exact ⟨⟨_, nd_get h3, h3⟩, fun l hl => h2.cov hl⟩
  · obtain ⟨lf, ho⟩ := ho
    have e : leafToNode l = 2 * l := by unfold leafToNode; omega
    have hb : nd t (leafToNode l) ≠ .blank := by
      unfold nd; rw [e, ho]; simp
    rcases resP_reach hs.pos hb _ _ (level_lt_64 hs.pos hs.cap hx) hx hl with h | ⟨r, h1, h2, h3, h4, h5, h6⟩
    · left; rw [← e]; exact h
    · right
      refine ⟨r, h1, ?_⟩
      cases hv : nd t r with
      | blank => exact absurd hv h2
      | leaf lf => exact absurd (hs.inner r lf hv) h4
      | parent pk um =>
        rw [hv] at h6
        exact ⟨pk, um, by rw [← hv]; exact nd_get h2, h5, h6⟩

/-- C23 for every tree a group gets to: the resolution of each node exists and covers exactly what it should. Missing: the
code takes a tree from a Welcome as it is, and for trees no group gets to the property is false, see below. -/
theorem C23_resolution_partial (P : Prims M) (hP : Lawful P) {w : World M} (hw : Reach P w) {i : Nat} {g : GroupState M}
    (hi : w i = some g) {x : Nat} (hx : x < g.tree.length) :
    ∃ rs, resolution g.tree x = some rs ∧ Covers g.tree (numLeaves g.tree) x rs := by
  obtain ⟨v, hv⟩ := inv_reach P hP hw
  rw [(hv.member i g hi).tree] at hx ⊢
  rw [hv.shape.toSize.leaves]
  exact shape_covers hv.shape hx

/-- A tree as it may be in a hostile Welcome: two members, and a root that lists leaf 7 as unmerged. -/
def hostileTree : Tree Nat := [.leaf ⟨1, 10, 0⟩, .parent 11 [7], .leaf ⟨2, 12, 1⟩]

/-- C23 is false for it: the resolution of the root lists node 14, outside of the tree. The next commit of any
member indexes the tree with it. -/
theorem C23_counterexample : resolution hostileTree 1 = some [1, 14] ∧ hostileTree[14]? = none ∧
    ¬ ∃ rs, resolution hostileTree 1 = some rs ∧ Covers hostileTree 2 1 rs := by
  refine ⟨rfl, rfl, ?_⟩
  rintro ⟨rs, h1, h2⟩
  have e : resolution hostileTree 1 = some [1, 14] := rfl
  rw [e, Option.some.injEq] at h1
  obtain ⟨⟨v, h, _⟩, _⟩ := h2.1 14 (by rw [← h1]; simp)
  cases h

/-- C24: in every execution, all members have the same tree, epoch, secrets and transcript, they sit at distinct leaves, and
each decrypts what any other encrypts. -/
theorem C24_agreement (P : Prims M) (hP : Lawful P) {w : World M} (hw : Reach P w) {i j : Nat} {g h : GroupState M}
    (hi : w i = some g) (hj : w j = some h) :
    g.tree = h.tree ∧ g.epoch = h.epoch ∧ g.secrets = h.secrets ∧ g.transcript = h.transcript ∧ g.ownLeaf = i ∧
      ∀ m, decryptMessage P h (encryptMessage P g m).2 = some m := by
  obtain ⟨v, hv⟩ := inv_reach P hP hw
  have hg := hv.member i g hi
  have hh := hv.member j h hj
  refine ⟨hg.tree.trans hh.tree.symm, hg.epoch.trans hh.epoch.symm, hg.secrets.trans hh.secrets.symm,
    hg.transcript.trans hh.transcript.symm, hg.leaf, fun m => ?_⟩
  unfold decryptMessage encryptMessage
  dsimp only
  rw [if_pos (by rw [hg.epoch, hh.epoch]), hg.secrets, hh.secrets, hP.open_seal]

/-- C24: no valid operation fails or panics, at anyone. -/
theorem C24_no_failure (P : Prims M) (hP : Lawful P) {w : World M} (hw : Reach P w) {op : Op M} (hop : Valid P w op) :
    Fine P w op := by
  obtain ⟨v, hv⟩ := inv_reach P hP hw
  exact (step_ok P hP hv hop).1

/-- C24: the members are the occupied leaves of the tree. -/
theorem C24_members (P : Prims M) (hP : Lawful P) {w : World M} (hw : Reach P w) {i : Nat} {g : GroupState M} (hi : w i = some g)
    (j : Nat) : Occupied g.tree j ↔ (w j).isSome := by
  obtain ⟨v, hv⟩ := inv_reach P hP hw
  rw [(hv.member i g hi).tree]
  have e : 2 * j = leafToNode j := by unfold leafToNode; omega
  constructor
  · rintro ⟨lf, h⟩
    rw [e] at h
    have hb : nd v.tree (leafToNode j) = .leaf lf := by unfold nd; rw [h]; rfl
    have hne : nd v.tree (leafToNode j) ≠ .blank := by rw [hb]; simp
    exact (hv.leaf j (lt_of_leaf_in (hv.shape.lt hne))).1 hne
  · intro h
    obtain ⟨g', hg'⟩ := Option.isSome_iff_exists.1 h
    have hne := (hv.leaf j (hv.member j g' hg').lt).2 h
    obtain ⟨lf, hl⟩ := nd_leaf hv.shape hne
    exact ⟨lf, by rw [e, nd_get hne, hl]⟩

/-- The epoch goes up by one in each commit. -/
theorem C24_epoch (P : Prims M) (hP : Lawful P) {w : World M} (hw : Reach P w) {i j : Nat} {g h : GroupState M} {op : Op M}
    (hop : Valid P w op) (hi : w i = some g) (hj : (step P w op).1 j = some h) :
    h.epoch = match op with | .send _ _ => g.epoch | _ => g.epoch + 1 := by
  obtain ⟨v, hv⟩ := inv_reach P hP hw
  rw [(hv.member i g hi).epoch]
  cases op with
  | update k s rnd =>
    obtain ⟨g, hg⟩ := Option.isSome_iff_exists.1 hop
    obtain ⟨l, us, -, -, h3, -, h5⟩ := update_ok P hP hv hg s rnd
    unfold step at hj
    dsimp only at hj
    rw [hg] at hj
    dsimp only at hj
    rw [h3] at hj
    exact (h5.member j h hj).epoch
  | add k leaf js s rnd rw =>
    obtain ⟨hpk, g, hg, hcap⟩ := hop
    rw [(hv.member k g hg).tree, hv.shape.toSize.leaves] at hcap
    obtain ⟨q, n, t0, l, us, lca, σ, hj', -, -, -, h1, -, -, -, -, -, -, -, h2, h3, -, h4, h5⟩ :=
      add_ok P hP hv hg hcap hpk s rnd rw
    unfold step at hj
    dsimp only at hj
    rw [hg] at hj
    dsimp only at hj
    rw [h2] at hj
    dsimp only at hj
    rw [h4] at hj
    exact (h5.member j h hj).epoch
  | remove k k' s rnd =>
    obtain ⟨h1, h2, h3⟩ := hop
    obtain ⟨g, hg⟩ := Option.isSome_iff_exists.1 h1
    obtain ⟨t0, l, us, -, -, -, -, h4, h5, h6⟩ := remove_ok P hP hv hg h2 h3 s rnd
    unfold step at hj
    dsimp only at hj
    rw [hg] at hj
    dsimp only at hj
    rw [h4] at hj
    exact (h6.member j h hj).epoch
  | send k m =>
    obtain ⟨g, hg⟩ := Option.isSome_iff_exists.1 hop
    unfold step at hj
    dsimp only at hj
    rw [hg] at hj
    exact ((send_ok P hv hg m).member j h hj).epoch

/-! ### A concrete group -/

section
open Verif.Sym

/-- The `k`-th operation takes fresh values `3 * k` and up. -/
def exLeaf (k : Nat) : LeafNode Term := ⟨100 + k, .pk (.fresh (3 * k + 1)), 0⟩

def exRnd (k : Nat) : Nat → Nat → Nat := fun a b => 1000 * k + 30 * a + b

def exAdd (k i : Nat) : Op Term := .add i (exLeaf k) (.fresh (3 * k + 1)) (.fresh (3 * k)) (exRnd k) (1000 * k + 999)

/-- Five members, one of whom is removed and replaced, updates by non-founders, messages, removal of the founder. -/
def exOps : List (Op Term) :=
  [exAdd 1 0, exAdd 2 0, exAdd 3 1, .update 2 (.fresh 12) (exRnd 4), .remove 3 1 (.fresh 15) (exRnd 5), exAdd 6 2,
    .send 1 (.fresh 20), exAdd 7 1, .remove 4 0 (.fresh 24) (exRnd 8), .update 3 (.fresh 27) (exRnd 9)]

def exStart : World Term := founding symPrims ⟨100, .pk (.fresh 0), 0⟩ (.fresh 0)

def runOps (P : Prims M) (w : World M) : List (Op M) → World M
  | [] => w
  | op :: ops => runOps P (step P w op).1 ops

def AllValid (P : Prims M) (w : World M) : List (Op M) → Prop
  | [] => True
  | op :: ops => Valid P w op ∧ AllValid P (step P w op).1 ops

theorem reach_run (P : Prims M) : ∀ (ops : List (Op M)) (w : World M), Reach P w → AllValid P w ops → Reach P (runOps P w ops)
  | [], _, h, _ => h
  | op :: ops, _, h, hv => reach_run P ops _ (.step op h hv.1) hv.2

instance (w : World Term) (op : Op Term) : Decidable (Valid symPrims w op) := by
  cases op <;> unfold Valid <;> infer_instance

instance decAllValid : ∀ (ops : List (Op Term)) (w : World Term), Decidable (AllValid symPrims w ops)
  | [], _ => isTrue trivial
  | op :: ops, w =>
    haveI := decAllValid ops (step symPrims w op).1
    by unfold AllValid; infer_instance

/-- The hypotheses of the theorems are met by this execution; in the end members 1, 2, 3 and 4 are left. -/
example : Reach symPrims (runOps symPrims exStart exOps) ∧
    (List.range 6).filter (fun i => (runOps symPrims exStart exOps i).isSome) = [1, 2, 3, 4] :=
  ⟨reach_run _ _ _ (.create _ _ rfl) (by decide +kernel), by decide +kernel⟩

end

end Verif.TreeKem

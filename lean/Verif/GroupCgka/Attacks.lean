import Verif.GroupCgka.Props
import Verif.TreeKem.Attack
/-
C73, C74, C76.
-/
namespace Verif.GroupCgka

open Verif.TreeKem Verif.TreeMath Verif.Sym

variable {M : Type} (P : Prims M)

/-- The owner's reaction to a well-formed key package, whoever made it. -/
theorem owner_adds (hP : Lawful P) {w : World M} (hw : Reach P w) {c : Cgka M} {g : GroupState M} {i : Nat} (hi : w i = some g)
    (hg : c.group = some g) (ho : c.isOwner = true) (hcap : numLeaves g.tree < 2 ^ 31) (joiner : Nat) {leaf : LeafNode M} {js : M}
    (hpk : leaf.pk = P.pub js) (s : M) (rnd : Nat → Nat → Nat) (rw : Nat) :
    ∃ g' h wel e cm, onSignal P (some c) s rnd rw (.keyPackage joiner (some leaf)) =
        (some { c with group := some g' }, .added joiner wel e cm) ∧
      joinFromWelcome P wel js = .ok h ∧ wel.joiner ≠ i ∧ w wel.joiner = none ∧
      (step P w (.add i leaf js s rnd rw)).1 i = some g' ∧ (step P w (.add i leaf js s rnd rw)).1 wel.joiner = some h := by
  have hop : Valid P w (.add i leaf js s rnd rw) := ⟨hpk, g, hi, hcap⟩
  obtain ⟨g0, cm, wel, h1, h2, _, h4, h, h5⟩ := C24_no_failure P hP hw hop
  rw [hi, Option.some.injEq] at h1
  subst h1
  have hpair : TreeKem.addMember P g leaf s rnd rw = ((TreeKem.addMember P g leaf s rnd rw).1, .ok (cm, wel)) := by rw [← h2]
  have hne : wel.joiner ≠ i := by rintro e; rw [e, hi] at h4; cases h4
  refine ⟨(TreeKem.addMember P g leaf s rnd rw).1, h, wel, (TreeKem.addMember P g leaf s rnd rw).1.epoch, cm, ?_, h5, hne, h4, ?_, ?_⟩
  · unfold onSignal addMember
    dsimp only
    rw [ho, hg, if_neg (by simp)]
    dsimp only
    rw [h2]
    rfl
  · rw [step_add hi hpair h5]
    dsimp only
    rw [if_neg (Ne.symm hne)]
    unfold deliver
    rw [if_pos rfl]
  · rw [step_add hi hpair h5]
    dsimp only
    rw [if_pos rfl]

/-- C73 is false of the code: nothing in a key package says whose it is. The relay (or any client that has its packet relayed as
`joiner`'s) answers with a key pair of its own, under any cid, and opens the Welcome to the owner's new secrets. -/
theorem C73_counterexample (hP : Lawful P) {w : World M} (hw : Reach P w) {c : Cgka M} {g : GroupState M} {i : Nat}
    (hi : w i = some g) (hg : c.group = some g) (ho : c.isOwner = true) (hcap : numLeaves g.tree < 2 ^ 31) (joiner cid : Nat) (js : M)
    (s : M) (rnd : Nat → Nat → Nat) (rw : Nat) :
    ∃ g' h wel e cm, onSignal P (some c) s rnd rw (.keyPackage joiner (some (keyPackage P cid js))) =
        (some { c with group := some g' }, .added joiner wel e cm) ∧
      joinFromWelcome P wel js = .ok h ∧ h.secrets = g'.secrets ∧
      ∀ m, decryptMessage P h (encryptMessage P g' m).2 = some m := by
  obtain ⟨g', h, wel, e, cm, h1, h2, _, _, h5, h6⟩ := owner_adds P hP hw hi hg ho hcap joiner (leaf := keyPackage P cid js) rfl s rnd rw
  have hw' := Reach.step _ hw (show Valid P w (.add i (keyPackage P cid js) js s rnd rw) from ⟨rfl, g, hi, hcap⟩)
  have ha := C24_agreement P hP hw' h5 h6
  exact ⟨g', h, wel, e, cm, h1, h2, ha.2.2.1.symm, ha.2.2.2.2.2⟩

/-- The hypotheses are met by a group that has just been made. -/
example : Reach symPrims exStart ∧ (exStart 0).isSome ∧ ((exStart 0).map fun g => numLeaves g.tree) = some 1 :=
  ⟨.create _ _ rfl, rfl, by decide +kernel⟩

/-! ### C76 -/

theorem leafOfCid_some {t : TreeKem.Tree M} {cid j : Nat} (h : leafOfCid t cid = some j) : ∃ l, t[leafToNode j]? = some (.leaf l) ∧ l.cid = cid := by
  unfold leafOfCid at h
  have h' := List.find?_some h
  split at h'
  · rename_i l hl
    exact ⟨l, hl, by simpa using h'⟩
  · cases h'

/-- C76 is false of the code: kicking a cid removes one leaf that carries it. Whoever sits at a second leaf with that cid goes on
having the owner's secrets; with `C73_counterexample` any client gets a second leaf. -/
theorem C76_counterexample (hP : Lawful P) {w : World M} (hw : Reach P w) {c : Cgka M} {g : GroupState M} {cid k1 k2 : Nat}
    (hi : w 0 = some g) (hg : c.group = some g) (ho : c.isOwner = true) {l1 l2 : LeafNode M}
    (h1 : g.tree[leafToNode k1]? = some (.leaf l1)) (h2 : g.tree[leafToNode k2]? = some (.leaf l2)) (hc1 : l1.cid = cid)
    (hc2 : l2.cid = cid) (hk : k1 ≠ k2) (howner : ∀ l, g.tree[leafToNode 0]? = some (.leaf l) → l.cid ≠ cid)
    (s : M) (rnd : Nat → Nat → Nat) :
    ∃ g' cm k h0, (removeByCid P c cid s rnd).1.group = some g' ∧ (removeByCid P c cid s rnd).2 = .ok (some (cm, g'.epoch)) ∧
      (k = k1 ∨ k = k2) ∧ w k = some h0 ∧ (TreeKem.processCommit P h0 cm).2 = .ok () ∧
      (TreeKem.processCommit P h0 cm).1.secrets = g'.secrets ∧
      ∀ m, decryptMessage P (TreeKem.processCommit P h0 cm).1 (encryptMessage P g' m).2 = some m := by
  have hmem : ∀ {k l}, g.tree[leafToNode k]? = some (.leaf l) → (w k).isSome := by
    intro k l h
    refine (C24_members P hP hw hi k).1 ⟨l, ?_⟩
    have e : 2 * k = leafToNode k := by unfold leafToNode; omega
    rw [e, h]
  obtain ⟨j, hj⟩ : ∃ j, leafOfCid g.tree cid = some j := by
    rw [← Option.isSome_iff_exists]
    unfold leafOfCid
    rw [List.find?_isSome]
    refine ⟨k1, List.mem_range.2 ?_, ?_⟩
    · have := (List.getElem?_eq_some_iff.1 h1).1
      unfold leafToNode at this
      unfold numLeaves
      omega
    · rw [h1]
      simpa using hc1
  obtain ⟨lj, hlj, hcj⟩ := leafOfCid_some hj
  have hj0 : (0 : Nat) ≠ j := by rintro rfl; exact howner lj hlj hcj
  have hop : Valid P w (.remove 0 j s rnd) := ⟨by rw [hi]; rfl, hmem hlj, hj0⟩
  obtain ⟨g0, cm, h3, h4, h5⟩ := C24_no_failure P hP hw hop
  rw [hi, Option.some.injEq] at h3
  subst h3
  have hw' := Reach.step _ hw hop
  have hpair : TreeKem.removeMember P g j s rnd = ((TreeKem.removeMember P g j s rnd).1, .ok cm) := by rw [← h4]
  rw [step_remove hi hpair] at hw'
  dsimp only at hw'
  obtain ⟨k, hk', hkj, hks⟩ : ∃ k, (k = k1 ∨ k = k2) ∧ k ≠ j ∧ (w k).isSome ∧ k ≠ 0 := by
    have z1 : k1 ≠ 0 := by rintro rfl; exact howner l1 h1 hc1
    have z2 : k2 ≠ 0 := by rintro rfl; exact howner l2 h2 hc2
    by_cases e : k1 = j
    · exact ⟨k2, .inr rfl, by omega, hmem h2, z2⟩
    · exact ⟨k1, .inl rfl, e, hmem h1, z1⟩
  obtain ⟨h0, hh0⟩ := Option.isSome_iff_exists.1 hks.1
  have ha := C24_agreement P hP hw' (i := 0) (j := k) (g := (TreeKem.removeMember P g j s rnd).1)
    (h := (TreeKem.processCommit P h0 cm).1) (by rw [if_neg hj0]; unfold deliver; rw [if_pos rfl])
    (by rw [if_neg hkj]; unfold deliver; rw [if_neg hks.2, hh0]; rfl)
  refine ⟨(TreeKem.removeMember P g j s rnd).1, cm, k, h0, ?_, ?_, hk', hh0, h5 k h0 hks.2 hkj hh0, ha.2.2.1.symm, ha.2.2.2.2.2⟩
  · unfold removeByCid removeMember
    rw [ho, hg, if_neg (by simp)]
    dsimp only
    rw [hj]
    rfl
  · unfold removeByCid removeMember
    rw [ho, hg, if_neg (by simp)]
    dsimp only
    rw [hj]
    dsimp only
    rw [if_neg (by simp), h4]
    rfl

/-- The hypotheses are met: the owner gets two key packages with cid 7. -/
def exTwin (k : Nat) : Op Term := .add 0 ⟨7, .pk (.fresh (3 * k + 1)), 0⟩ (.fresh (3 * k + 1)) (.fresh (3 * k)) (exRnd k) (1000 * k + 999)

example : let w := runOps symPrims exStart [exTwin 1, exTwin 2]
    Reach symPrims w ∧ ((w 0).bind fun g => (g.tree[leafToNode 1]?).map fun n => match n with | .leaf l => l.cid | _ => 0) = some 7 ∧
      ((w 0).bind fun g => (g.tree[leafToNode 2]?).map fun n => match n with | .leaf l => l.cid | _ => 0) = some 7 ∧
      ((w 0).bind fun g => (g.tree[leafToNode 0]?).map fun n => match n with | .leaf l => l.cid | _ => 0) = some 100 :=
  ⟨reach_run _ _ _ (.create _ _ rfl) (by decide +kernel), by decide +kernel⟩

/-- C76 when the cid has one leaf: afterwards the cid is not in the owner's tree. Missing: more leaves of the same cid, and a key
package still on its way. -/
theorem C76_one_leaf_partial (hP : Lawful P) {w : World M} (hw : Reach P w) {c : Cgka M} {g : GroupState M} {cid k : Nat}
    (hi : w 0 = some g) (hg : c.group = some g) (ho : c.isOwner = true) {l : LeafNode M}
    (h1 : g.tree[leafToNode k]? = some (.leaf l)) (hc1 : l.cid = cid) (hk : k ≠ 0)
    (huniq : ∀ k' l', g.tree[leafToNode k']? = some (.leaf l') → l'.cid = cid → k' = k) (s : M) (rnd : Nat → Nat → Nat) :
    ∃ g' cm, (removeByCid P c cid s rnd).1.group = some g' ∧ (removeByCid P c cid s rnd).2 = .ok (some (cm, g'.epoch)) ∧
      (step P w (.remove 0 k s rnd)).1 0 = some g' ∧ (step P w (.remove 0 k s rnd)).1 k = none ∧ ¬ Occupied g'.tree k := by
  have hmem : ∀ {k l}, g.tree[leafToNode k]? = some (.leaf l) → (w k).isSome := by
    intro k l h
    refine (C24_members P hP hw hi k).1 ⟨l, ?_⟩
    have e : 2 * k = leafToNode k := by unfold leafToNode; omega
    rw [e, h]
  have hj : leafOfCid g.tree cid = some k := by
    cases hj : leafOfCid g.tree cid with
    | none =>
      exfalso
      unfold leafOfCid at hj
      rw [List.find?_eq_none] at hj
      refine hj k (List.mem_range.2 ?_) ?_
      · have := (List.getElem?_eq_some_iff.1 h1).1
        unfold leafToNode at this
        unfold numLeaves
        omega
      · rw [h1]
        simpa using hc1
    | some j =>
      obtain ⟨lj, hlj, hcj⟩ := leafOfCid_some hj
      rw [huniq j lj hlj hcj]
  have hop : Valid P w (.remove 0 k s rnd) := ⟨by rw [hi]; rfl, hmem h1, Ne.symm hk⟩
  obtain ⟨g0, cm, h3, h4, h5⟩ := C24_no_failure P hP hw hop
  rw [hi, Option.some.injEq] at h3
  subst h3
  have hw' := Reach.step _ hw hop
  have hpair : TreeKem.removeMember P g k s rnd = ((TreeKem.removeMember P g k s rnd).1, .ok cm) := by rw [← h4]
  have e0 : (step P w (.remove 0 k s rnd)).1 0 = some (TreeKem.removeMember P g k s rnd).1 := by
    rw [step_remove hi hpair]
    dsimp only
    rw [if_neg (Ne.symm hk)]
    unfold deliver
    rw [if_pos rfl]
  have ek : (step P w (.remove 0 k s rnd)).1 k = none := by
    rw [step_remove hi hpair]
    dsimp only
    rw [if_pos rfl]
  refine ⟨(TreeKem.removeMember P g k s rnd).1, cm, ?_, ?_, e0, ek, ?_⟩
  · unfold removeByCid removeMember
    rw [ho, hg, if_neg (by simp)]
    dsimp only
    rw [hj]
    rfl
  · unfold removeByCid removeMember
    rw [ho, hg, if_neg (by simp)]
    dsimp only
    rw [hj]
    dsimp only
    rw [if_neg (by simp), h4]
    rfl
  · rw [C24_members P hP hw' e0 k, ek]
    simp

/-! ### C74 -/

section

/-- Leaf 1 of a group of four makes a commit in the name of leaf 2: `path.leaf_index` is whatever the sender writes. -/
def exWorld : World Term := runOps symPrims exStart [exAdd 1 0, exAdd 2 0, exAdd 3 0]

def exForge : GroupState Term × Res (Commit Term) :=
  match exWorld 1 with
  | some g => commitUpdate symPrims { g with ownLeaf := 2 } (.fresh 100) (exRnd 4)
  | none => (create symPrims (exLeaf 1) (.fresh 0), .err)

/-- The owner processes the forged commit … -/
def exOwnerMid : GroupState Term × Res Unit :=
  match exWorld 0, resVal exForge.2 with
  | some g, some cm => TreeKem.processCommit symPrims g cm
  | _, _ => (create symPrims (exLeaf 1) (.fresh 0), .err)

/-- … and later removes leaf 1. -/
def exOwnerAfter : GroupState Term × Res (Commit Term) := TreeKem.removeMember symPrims exOwnerMid.1 1 (.fresh 101) (exRnd 5)

/-- The removed member goes on with its forged state. -/
def exRemoved : GroupState Term × Res Unit :=
  match resVal exOwnerAfter.2 with
  | some cm => TreeKem.processCommit symPrims exForge.1 cm
  | none => (exForge.1, .err)

/-- C74 is false of the code: nothing ties a commit to its sender. A member that committed under another leaf before being removed
processes its own removal and has the owner's new secrets. -/
theorem C74_counterexample :
    (resVal exForge.2).isSome ∧ exOwnerMid.2 = .ok () ∧ (resVal exOwnerAfter.2).map (·.proposals) = some [.remove 1] ∧
      exRemoved.2 = .ok () ∧ exRemoved.1.secrets = exOwnerAfter.1.secrets := by
  decide +kernel

end

end Verif.GroupCgka

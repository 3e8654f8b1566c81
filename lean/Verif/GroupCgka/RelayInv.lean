import Verif.GroupCgka.Relay
import Verif.TreeKem.Attack
/-
The invariant of the relayed group: history of the owner's commits, and what each client's queue does to it.
-/
namespace Verif.GroupCgka

open Verif.TreeKem Verif.TreeMath

variable {M : Type} (P : Prims M)

/-! ### The owner's commits -/

/-- Whose leaf it is. -/
def cidAt (t : TreeKem.Tree M) (k : Nat) : Option Nat :=
  match nd t (leafToNode k) with
  | .leaf l => some l.cid
  | _ => none

theorem rekey_cid {t : TreeKem.Tree M} {n i : Nat} (hs : Shape t n) (hi : i < n) {l : LeafNode M} (hl : nd t (leafToNode i) = .leaf l)
    (s : M) (k : Nat) : cidAt (rekey P t n i s l) k = cidAt t k := by
  unfold cidAt
  rcases rekey_cases (l := l) P hs hi s (leafToNode k) with ⟨e, h⟩ | ⟨e, _⟩ | ⟨_, _, h⟩
  · rw [h, e, hl]
  · exact absurd rfl (dp_not_leaf hi e k)
  · rw [h]

/-- `g` up to the number of messages sent. -/
def Like (g g0 : GroupState M) : Prop := ∃ n, g = { g0 with gen := n }

theorem process_like {g g0 : GroupState M} (h : Like g g0) (c : Commit M) (hok : (TreeKem.processCommit P g0 c).2 = .ok ()) :
    TreeKem.processCommit P g c = TreeKem.processCommit P g0 c := by
  obtain ⟨n, rfl⟩ := h
  unfold TreeKem.processCommit at hok ⊢
  dsimp only at hok ⊢
  cases h1 : c.proposals.foldlM applyProposal g0.tree with
  | none => rw [h1] at hok; cases hok
  | some t0 =>
    rw [h1] at hok
    dsimp only at hok ⊢
    cases h2 : applyUpdatePath P t0 c.path g0.own with
    | mk t r =>
      rw [h2] at hok
      cases r with
      | err => cases hok
      | panic => cases hok
      | ok x => rfl

theorem remove_like {g g0 : GroupState M} (h : Like g g0) (j : Nat) (s : M) (rnd : Nat → Nat → Nat) {c : Commit M}
    (hok : (TreeKem.removeMember P g0 j s rnd).2 = .ok c) : TreeKem.removeMember P g j s rnd = TreeKem.removeMember P g0 j s rnd := by
  obtain ⟨n, rfl⟩ := h
  unfold TreeKem.removeMember at hok ⊢
  dsimp only at hok ⊢
  cases h1 : removeLeaf g0.tree j with
  | none => rw [h1] at hok; cases hok
  | some t0 =>
    rw [h1] at hok
    dsimp only at hok ⊢
    cases h2 : generateUpdatePath P t0 g0.ownLeaf s rnd with
    | mk t r =>
      rw [h2] at hok
      cases r with
      | err => cases hok
      | panic => cases hok
      | ok x => rfl

theorem add_like {g g0 : GroupState M} (h : Like g g0) (leaf : LeafNode M) (s : M) (rnd : Nat → Nat → Nat) (rw : Nat)
    {x : Commit M × Welcome M} (hok : (TreeKem.addMember P g0 leaf s rnd rw).2 = .ok x) :
    TreeKem.addMember P g leaf s rnd rw = TreeKem.addMember P g0 leaf s rnd rw := by
  obtain ⟨n, rfl⟩ := h
  unfold TreeKem.addMember at hok ⊢
  dsimp only at hok ⊢
  cases h1 : addLeafAt g0.tree (freeSlot g0.tree) leaf with
  | none => rw [h1] at hok; cases hok
  | some t0 =>
    rw [h1] at hok
    dsimp only at hok ⊢
    cases h2 : generateUpdatePath P t0 g0.ownLeaf s rnd with
    | mk t r =>
      rw [h2] at hok
      cases r with
      | err => cases hok
      | panic => cases hok
      | ok x =>
        obtain ⟨path, root, own⟩ := x
        dsimp only at hok ⊢
        cases h3 : directPathC g0.ownLeaf (numLeaves t) with
        | none => rw [h3] at hok; cases hok
        | some dp =>
          rw [h3] at hok
          cases h4 : directPathC (freeSlot g0.tree) (numLeaves t) with
          | none => rw [h4] at hok; cases hok
          | some dq =>
            rw [h4] at hok
            dsimp only at hok ⊢
            cases h5 : dp.find? (fun x => dq.contains x) with
            | none => rw [h5] at hok; cases hok
            | some lca =>
              rw [h5] at hok
              dsimp only at hok ⊢
              cases h6 : own lca with
              | none => rw [h6] at hok; cases hok
              | some ls => rfl

/-- What the owner's commit does to everyone. -/
structure Moved (w w' : World M) (g g' : GroupState M) (cm : Commit M) (gone : Nat → Prop) : Prop where
  reach : Reach P w'
  owner : w' 0 = some g'
  epoch : g'.epoch = g.epoch + 1
  others : ∀ j h, j ≠ 0 → ¬ gone j → w j = some h → (TreeKem.processCommit P h cm).2 = .ok () ∧ w' j = some (TreeKem.processCommit P h cm).1
  cids : ∀ k, (w k).isSome → ¬ gone k → cidAt g'.tree k = cidAt g.tree k
  left : ∀ j, gone j → w' j = none

theorem moved_add (hP : Lawful P) {w : World M} (hw : Reach P w) {g : GroupState M} (hg : w 0 = some g)
    (hcap : numLeaves g.tree < 2 ^ 31) {leaf : LeafNode M} {js : M} (hpk : leaf.pk = P.pub js) (s : M) (rnd : Nat → Nat → Nat) (rw : Nat) :
    ∃ w' g' cm wel hj, TreeKem.addMember P g leaf s rnd rw = (g', .ok (cm, wel)) ∧ Moved P w w' g g' cm (fun _ => False) ∧
      w wel.joiner = none ∧ wel.joiner ≠ 0 ∧ w' wel.joiner = some hj ∧ joinFromWelcome P wel js = .ok hj ∧
      cidAt g'.tree wel.joiner = some leaf.cid ∧ hj.epoch = g'.epoch ∧
      ∀ k, k ≠ wel.joiner → w k = none → w' k = none := by
  obtain ⟨v, hv⟩ := inv_reach P hP hw
  have hm := hv.member 0 g hg
  have hop : Valid P w (.add 0 leaf js s rnd rw) := ⟨hpk, g, hg, hcap⟩
  rw [hm.tree, hv.shape.toSize.leaves] at hcap
  obtain ⟨q, n, t0, l, us, lca, σ, hj, hq, hn, hqi, hwq, hadd, hs0, hl, -, -, -, -, h2, h3, -, h4, h5⟩ := add_ok P hP hv hg hcap hpk s rnd rw
  have hst := step_add hg h2 h4
  have hreach := Reach.step _ hw hop
  rw [hst] at hreach
  have hi : 0 < n := by rw [hn]; omega
  have hcid : ∀ k, cidAt (committed P v t0 n 0 s l ⟨[.add leaf q], ⟨0, P.pub s, us⟩⟩).tree k = cidAt t0 k := fun k => rekey_cid P hs0 hi hl s k
  have hqn : q < n := by rw [hn]; omega
  refine ⟨_, _, _, _, hj, h2, ⟨hreach, ?_, ?_, ?_, ?_, fun _ h => h.elim⟩, hwq, hqi, ?_, h4, ?_, ?_, ?_⟩
  · dsimp only
    rw [if_neg (Ne.symm hqi)]
    unfold deliver
    rw [if_pos rfl]
  · rw [hm.epoch]; rfl
  · intro j h hj0 _ hjw
    refine ⟨(h3 j h hj0 hjw).ok, ?_⟩
    dsimp only
    rw [if_neg (by rintro rfl; rw [hwq] at hjw; cases hjw)]
    unfold deliver
    rw [if_neg hj0, hjw]
    rfl
  · intro k hk _
    rw [hcid, hm.tree]
    unfold cidAt
    rw [hadd.nodes, if_neg (by
      intro e
      have : k = q := leaf_inj e
      rw [this, hwq] at hk
      cases hk), if_neg (fun e => dp_not_leaf hqn e k rfl)]
  · dsimp only
    rw [if_pos rfl]
  · rw [hcid]
    unfold cidAt
    rw [hadd.nodes, if_pos rfl]
  · have := h5.member q hj (by rw [if_pos rfl])
    rw [this.epoch]
    rfl
  · intro k hk hwk
    dsimp only
    rw [if_neg hk]
    unfold deliver
    rw [if_neg (by rintro rfl; rw [hg] at hwk; cases hwk), hwk]
    rfl

theorem moved_remove (hP : Lawful P) {w : World M} (hw : Reach P w) {g : GroupState M} (hg : w 0 = some g) {j : Nat}
    (hj : (w j).isSome) (hj0 : 0 ≠ j) (s : M) (rnd : Nat → Nat → Nat) :
    ∃ w' g' cm, TreeKem.removeMember P g j s rnd = (g', .ok cm) ∧ Moved P w w' g g' cm (fun k => k = j) ∧ ∀ k, w k = none → w' k = none := by
  obtain ⟨v, hv⟩ := inv_reach P hP hw
  have hm := hv.member 0 g hg
  have hop : Valid P w (.remove 0 j s rnd) := ⟨by rw [hg]; rfl, hj, hj0⟩
  obtain ⟨gj, hgj⟩ := Option.isSome_iff_exists.1 hj
  have hjn := (hv.member j gj hgj).lt
  obtain ⟨t0, l, us, hnd, hs0, hl, -, h4, h5, h6⟩ := remove_ok P hP hv hg hj hj0 s rnd
  have hst := step_remove hg h4
  have hreach := Reach.step _ hw hop
  rw [hst] at hreach
  have hcid : ∀ k, cidAt (committed P v t0 v.leaves 0 s l ⟨[.remove j], ⟨0, P.pub s, us⟩⟩).tree k = cidAt t0 k :=
    fun k => rekey_cid P hs0 hm.lt hl s k
  refine ⟨_, _, _, h4, ⟨hreach, ?_, ?_, ?_, ?_, ?_⟩, ?_⟩
  · dsimp only
    rw [if_neg hj0]
    unfold deliver
    rw [if_pos rfl]
  · rw [hm.epoch]; rfl
  · intro k h hk0 hkj hkw
    refine ⟨(h5 k h hk0 hkj hkw).ok, ?_⟩
    dsimp only
    rw [if_neg hkj]
    unfold deliver
    rw [if_neg hk0, hkw]
    rfl
  · intro k hk hkj
    rw [hcid, hm.tree]
    unfold cidAt
    rw [hnd, if_neg]
    rintro (e | e)
    · exact hkj (leaf_inj e)
    · exact dp_not_leaf hjn e k rfl
  · rintro k rfl
    dsimp only
    rw [if_pos rfl]
  · intro k hwk
    dsimp only
    split
    · rfl
    · unfold deliver
      rw [if_neg (by rintro rfl; rw [hg] at hwk; cases hwk), hwk]
      rfl

end Verif.GroupCgka

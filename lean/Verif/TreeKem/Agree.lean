import Verif.TreeKem.Ops
import Verif.TreeKem.Spec
/-
The invariant behind agreement.
-/
namespace Verif.TreeKem

open Verif.TreeMath

variable {M : Type} (P : Prims M)

/-- What all members share. -/
structure Shared (M : Type) where
  tree : Tree M
  leaves : Nat
  epoch : Nat
  secrets : Secrets M
  transcript : M

/-- A member's state. -/
structure MemberOk (v : Shared M) (j : Nat) (g : GroupState M) : Prop where
  tree : g.tree = v.tree
  epoch : g.epoch = v.epoch
  secrets : g.secrets = v.secrets
  transcript : g.transcript = v.transcript
  leaf : g.ownLeaf = j
  lt : j < v.leaves
  holds : Holds P v.tree v.leaves j g.own

structure Inv (w : World M) (v : Shared M) : Prop where
  shape : Shape v.tree v.leaves
  keys : GoodKeys P v.tree
  init : P.isSecret v.secrets.init = true
  member : ∀ j g, w j = some g → MemberOk P v j g
  leaf : ∀ j, j < v.leaves → (nd v.tree (leafToNode j) ≠ .blank ↔ (w j).isSome)

/-- The shared state after a commit by `i` that leads from the tree `t0`. -/
def Shared.next (v : Shared M) (t0 : Tree M) (n i : Nat) (s : M) (l : LeafNode M) (c : Commit M) : Shared M :=
  ⟨rekey P t0 n i s l, n, v.epoch + 1, derive P (rootOf P n i s) v.secrets.init (P.transcript v.transcript c),
    P.transcript v.transcript c⟩

theorem nd_leaf {t : Tree M} {n j : Nat} (hs : Shape t n) (hb : nd t (leafToNode j) ≠ .blank) :
    ∃ l, nd t (leafToNode j) = .leaf l := by
  cases h : nd t (leafToNode j) with
  | blank => exact absurd h hb
  | leaf l => exact ⟨l, rfl⟩
  | parent pk um => exact absurd (leaf_level j) (hs.outer _ _ _ h)

/-- The state of the committer. -/
def committed (v : Shared M) (t0 : Tree M) (n i : Nat) (s : M) (l : LeafNode M) (c : Commit M) : GroupState M :=
  let v' := v.next P t0 n i s l c
  ⟨v'.tree, i, ownOf P n i s, v'.epoch, v'.secrets, v'.transcript, 0⟩

theorem advance_eq {v : Shared M} {i : Nat} {g : GroupState M} (hg : MemberOk P v i g) {t0 : Tree M} {n k : Nat} {s : M}
    {l : LeafNode M} {own : Own M} {c : Commit M} :
    advance P { g with tree := rekey P t0 n k s l, own := own } (rootOf P n k s) c =
      { committed P v t0 n k s l c with ownLeaf := i, own := own } := by
  unfold advance committed Shared.next
  dsimp only
  rw [hg.epoch, hg.secrets, hg.transcript, hg.leaf]

theorem advance_eq' {v : Shared M} {i : Nat} {g : GroupState M} (hg : MemberOk P v i g) {t0 : Tree M} {n k : Nat} {s : M}
    {l : LeafNode M} {own : Own M} {c : Commit M} :
    advance P ⟨rekey P t0 n k s l, i, own, g.epoch, g.secrets, g.transcript, g.gen⟩ (rootOf P n k s) c =
      { committed P v t0 n k s l c with ownLeaf := i, own := own } := by
  unfold advance committed Shared.next
  dsimp only
  rw [hg.epoch, hg.secrets, hg.transcript]

/-- `j` in state `h` processes the commit: it succeeds and learns the secrets of the committer's path above `j`. -/
structure Processed (h : GroupState M) (c : Commit M) (n i j : Nat) (s : M) : Prop where
  ok : (processCommit P h c).2 = .ok ()
  own : ∀ y, (processCommit P h c).1.own y =
    if y ∈ directPath i n ∧ Cov n y j then secAt P s (directPath i n) y else h.own y

/-- A bystander processes an honest commit. -/
theorem process_ok (hP : Lawful P) {v : Shared M} {j : Nat} {h : GroupState M} (hm : MemberOk P v j h) {t0 : Tree M} {n i : Nat}
    {s : M} {l : LeafNode M} {us : List (UpdNode M)} {props : List (Proposal M)}
    (hprops : props.foldlM applyProposal v.tree = some t0) (hs : Shape t0 n) (hi : i < n) (hl : nd t0 (leafToNode i) = .leaf l)
    (hj : j < n) (hji : j ≠ i) (hjl : nd t0 (leafToNode j) ≠ .blank)
    (hho : Honest P t0 n s (directPath i n) (copath i n) us) (hh : Holds P t0 n j h.own) :
    Processed P h ⟨props, ⟨i, P.pub s, us⟩⟩ n i j s ∧
      MemberOk P (v.next P t0 n i s l ⟨props, ⟨i, P.pub s, us⟩⟩) j (processCommit P h ⟨props, ⟨i, P.pub s, us⟩⟩).1 := by
  obtain ⟨own', e1, e2⟩ := apply_ok P hP hs hi hl hj hji hjl hho hh
  have e : processCommit P h ⟨props, ⟨i, P.pub s, us⟩⟩ =
      ({ committed P v t0 n i s l ⟨props, ⟨i, P.pub s, us⟩⟩ with ownLeaf := j, own := own' }, .ok ()) := by
    unfold processCommit
    dsimp only
    rw [hm.tree, hprops]
    dsimp only
    rw [e1]
    dsimp only
    rw [advance_eq P hm]
  refine ⟨⟨by rw [e], by rw [e]; exact e2⟩, ?_⟩
  rw [e]
  exact ⟨rfl, rfl, rfl, rfl, rfl, hj, rekey_holds P hs hi s hji hh e2⟩

theorem committed_ok {v : Shared M} {t0 : Tree M} {n i : Nat} {s : M} {l : LeafNode M} {c : Commit M} (hs : Shape t0 n)
    (hi : i < n) : MemberOk P (v.next P t0 n i s l c) i (committed P v t0 n i s l c) :=
  ⟨rfl, rfl, rfl, rfl, rfl, hi, rekey_own P hs hi s⟩

/-- The invariant after a commit, given the member states. -/
theorem inv_next (hP : Lawful P) {v : Shared M} {t0 : Tree M} {n i : Nat} {s : M} {l : LeafNode M} {c : Commit M} {w' : World M}
    (hs : Shape t0 n) (hg : GoodKeys P t0) (hi : i < n) (hl : nd t0 (leafToNode i) = .leaf l)
    (hm : ∀ j g, w' j = some g → MemberOk P (v.next P t0 n i s l c) j g)
    (hleaf : ∀ j, j < n → (nd t0 (leafToNode j) ≠ .blank ↔ (w' j).isSome)) : Inv P w' (v.next P t0 n i s l c) := by
  refine ⟨rekey_shape P hs hi hl s, rekey_keys P hs hi s hP hg, hP.secretExpand _ _, hm, fun j hj => ?_⟩
  rw [← hleaf j hj]
  exact not_congr (rekey_leaf_blank P hs hi hl s j)

theorem inv_founding (hP : Lawful P) {founder : LeafNode M} {s : M} (hpk : founder.pk = P.pub s) :
    ∃ v, Inv P (founding P founder s) v := by
  have ht : fromLeaves [{ founder with index := 0 }] = [Node.leaf { founder with index := 0 }] := by
    simp [fromLeaves, List.range_succ]
  have hnd : ∀ x, nd [Node.leaf { founder with index := 0 }] x =
      if x = 0 then Node.leaf { founder with index := 0 } else .blank := by
    intro x
    cases x with
    | zero => rfl
    | succ x => rw [if_neg (by omega)]; exact nd_out (by simp)
  refine ⟨⟨[Node.leaf { founder with index := 0 }], 1, 0, derive P (P.next s) P.zero P.zero, P.zero⟩, ?_⟩
  refine ⟨⟨⟨rfl, le_rfl, by norm_num⟩, ?_, ?_, ?_⟩, ?_, hP.secretExpand _ _, ?_, ?_⟩
  · intro x l hx
    rw [hnd] at hx
    split at hx
    · rename_i e; rw [e]; exact leaf_level 0
    · cases hx
  · intro x pk um hx
    rw [hnd] at hx
    split at hx <;> cases hx
  · intro x l hx
    rw [hnd] at hx
    split at hx <;> simp [Node.unmerged] at hx
  · intro x pk hx
    dsimp only at hx
    rw [hnd] at hx
    split at hx
    · rw [Node.pk?, Option.some.injEq] at hx
      rw [← hx, hpk]; exact hP.okPub s
    · simp [Node.pk?] at hx
  · intro j g hj
    unfold founding at hj
    split at hj
    · rename_i e
      rw [Option.some.injEq] at hj
      subst hj e
      refine ⟨ht, rfl, rfl, rfl, rfl, by norm_num, ?_⟩
      unfold create bootstrap
      refine ⟨fun r σ hr => ?_, fun r σ hr hb => ?_, rfl, fun a hb h0 _ _ => ?_⟩
      · dsimp only [Own.set] at hr
        split at hr
        · rename_i e; rw [e, cov_leaf (by norm_num)]
        · cases hr
      · dsimp only [Own.set] at hr
        split at hr
        · rename_i e
          rw [Option.some.injEq] at hr
          dsimp only
          rw [hnd, if_pos (by rw [e]; rfl), ← hr, ← hpk]
          rfl
        · cases hr
      · dsimp only at hb
        rw [hnd] at hb
        split at hb
        · rename_i e; rw [e] at h0; exact absurd (leaf_level 0) h0
        · exact absurd rfl hb
    · cases hj
  · intro j hj
    dsimp only at hj ⊢
    have : j = 0 := by omega
    subst this
    rw [hnd]
    simp [leafToNode, founding]

section
variable {w : World M} {v : Shared M} (hP : Lawful P) (hv : Inv P w v)
include hP hv

theorem update_ok {i : Nat} {g : GroupState M} (hg : w i = some g) (s : M) (rnd : Nat → Nat → Nat) :
    ∃ l us, let c : Commit M := ⟨[], ⟨i, P.pub s, us⟩⟩
      nd v.tree (leafToNode i) = .leaf l ∧ Honest P v.tree v.leaves s (directPath i v.leaves) (copath i v.leaves) us ∧
      commitUpdate P g s rnd = (committed P v v.tree v.leaves i s l c, .ok c) ∧
      (∀ j h, j ≠ i → w j = some h → Processed P h c v.leaves i j s) ∧
      Inv P (deliver P w i (committed P v v.tree v.leaves i s l c) c) (v.next P v.tree v.leaves i s l c) := by
  have hm := hv.member i g hg
  have hb : nd v.tree (leafToNode i) ≠ .blank := (hv.leaf i hm.lt).2 (by rw [hg]; rfl)
  obtain ⟨l, hl⟩ := nd_leaf hv.shape hb
  obtain ⟨us, e, hho⟩ := generate_ok P hv.shape hv.keys hm.lt hl s rnd
  have key : ∀ j h, j ≠ i → w j = some h → _ := fun j h hji hj =>
    let hmj := hv.member j h hj
    process_ok P hP hmj (props := []) (t0 := v.tree) rfl hv.shape hm.lt hl hmj.lt hji
      ((hv.leaf j hmj.lt).2 (by rw [hj]; rfl)) hho hmj.holds
  refine ⟨l, us, hl, hho, ?_, fun j h hji hj => (key j h hji hj).1, ?_⟩
  · unfold commitUpdate
    rw [hm.tree, hm.leaf, e]
    dsimp only
    rw [advance_eq' P hm]
    rfl
  · refine inv_next P hP hv.shape hv.keys hm.lt hl (fun j h hj => ?_) fun j hj => ?_
    · unfold deliver at hj
      split at hj
      · rename_i e
        rw [Option.some.injEq] at hj
        rw [← hj, e]
        exact committed_ok P hv.shape hm.lt
      · rename_i hji
        obtain ⟨h0, hw, rfl⟩ := Option.map_eq_some_iff.1 hj
        exact (key j h0 hji hw).2
    · rw [hv.leaf j hj]
      unfold deliver
      split
      · rename_i e; rw [e, hg]; simp
      · rw [Option.isSome_map]

theorem remove_ok {i j : Nat} {g : GroupState M} (hg : w i = some g) (hwj : (w j).isSome) (hij : i ≠ j) (s : M)
    (rnd : Nat → Nat → Nat) :
    ∃ t0 l us, let c : Commit M := ⟨[.remove j], ⟨i, P.pub s, us⟩⟩
      (∀ y, nd t0 y = if y = leafToNode j ∨ y ∈ directPath j v.leaves then .blank else nd v.tree y) ∧
      Shape t0 v.leaves ∧
      nd t0 (leafToNode i) = .leaf l ∧ Honest P t0 v.leaves s (directPath i v.leaves) (copath i v.leaves) us ∧
      removeMember P g j s rnd = (committed P v t0 v.leaves i s l c, .ok c) ∧
      (∀ k h, k ≠ i → k ≠ j → w k = some h → Processed P h c v.leaves i k s) ∧
      Inv P (fun k => if k = j then none else deliver P w i (committed P v t0 v.leaves i s l c) c k)
        (v.next P t0 v.leaves i s l c) := by
  have hm := hv.member i g hg
  obtain ⟨gj, hgj⟩ := Option.isSome_iff_exists.1 hwj
  have hjn := (hv.member j gj hgj).lt
  obtain ⟨t0, e0, hlen, hnd⟩ := removeLeaf_ok hv.shape.toSize hjn
  have hs0 := remove_shape hv.shape hjn hlen hnd
  have hk0 := remove_keys P hv.keys hnd
  have hleaf0 : ∀ k, k ≠ j → nd t0 (leafToNode k) = nd v.tree (leafToNode k) := by
    intro k hk
    rw [hnd, if_neg]
    rintro (e | e)
    · exact hk (leaf_inj e)
    · exact dp_not_leaf hjn e k rfl
  have hb : nd v.tree (leafToNode i) ≠ .blank := (hv.leaf i hm.lt).2 (by rw [hg]; rfl)
  obtain ⟨l, hl⟩ := nd_leaf hv.shape hb
  rw [← hleaf0 i hij] at hl
  obtain ⟨us, e, hho⟩ := generate_ok P hs0 hk0 hm.lt hl s rnd
  have key : ∀ k h, k ≠ i → k ≠ j → w k = some h → _ := fun k h hki hkj hk =>
    let hmk := hv.member k h hk
    process_ok P hP hmk (props := [.remove j]) (t0 := t0)
      (by rw [List.foldlM_cons, applyProposal, e0]; rfl) hs0 hm.lt hl hmk.lt hki
      (by rw [hleaf0 k hkj]; exact (hv.leaf k hmk.lt).2 (by rw [hk]; rfl)) hho (remove_holds P hmk.holds hnd)
  refine ⟨t0, l, us, hnd, hs0, hl, hho, ?_, fun k h hki hkj hk => (key k h hki hkj hk).1, ?_⟩
  · unfold removeMember
    rw [hm.tree, e0, hm.leaf]
    dsimp only
    rw [e]
    dsimp only
    rw [advance_eq' P hm]
    rfl
  · refine inv_next P hP hs0 hk0 hm.lt hl (fun k h hk => ?_) fun k hk => ?_
    · split at hk
      · cases hk
      · rename_i hkj
        unfold deliver at hk
        split at hk
        · rename_i e
          rw [Option.some.injEq] at hk
          rw [← hk, e]
          exact committed_ok P hs0 hm.lt
        · rename_i hki
          obtain ⟨h0, hw, rfl⟩ := Option.map_eq_some_iff.1 hk
          exact (key k h0 hki hkj hw).2
    · split
      · rename_i e
        rw [hnd, if_pos (.inl (by rw [e]))]
        simp
      · rename_i hkj
        rw [hleaf0 k hkj, hv.leaf k hk]
        unfold deliver
        split
        · rename_i e; rw [e, hg]; simp
        · rw [Option.isSome_map]

theorem add_ok {i : Nat} {g : GroupState M} (hg : w i = some g) (hcap : v.leaves < 2 ^ 31) {leaf : LeafNode M} {js : M}
    (hpk : leaf.pk = P.pub js) (s : M) (rnd : Nat → Nat → Nat) (rw : Nat) :
    ∃ q n t0 l us lca σ hj, let c : Commit M := ⟨[.add leaf q], ⟨i, P.pub s, us⟩⟩
      let v' := v.next P t0 n i s l c
      let wel : Welcome M := ⟨v'.tree, v'.epoch, v'.transcript, q, lca, P.enc (P.pub js) (P.cat (P.next σ) v.secrets.init) rw⟩
      q = freeSlot v.tree ∧ n = max v.leaves (q + 1) ∧ q ≠ i ∧ w q = none ∧ Added v.tree t0 n q leaf ∧ Shape t0 n ∧
      nd t0 (leafToNode i) = .leaf l ∧ Honest P t0 n s (directPath i n) (copath i n) us ∧
      lca ∈ directPath i n ∧ lca ∈ directPath q n ∧
      secAt P s (directPath i n) lca = some (P.next σ) ∧
      addMember P g leaf s rnd rw = (committed P v t0 n i s l c, .ok (c, wel)) ∧
      (∀ j h, j ≠ i → w j = some h → Processed P h c n i j s) ∧
      (∀ y, hj.own y = if y ∈ directPath i n ∧ y ∈ directPath q n then secAt P s (directPath i n) y
        else if y = leafToNode q then some js else none) ∧
      joinFromWelcome P wel js = .ok hj ∧
      Inv P (fun j => if j = q then some hj else deliver P w i (committed P v t0 n i s l c) c j) v' := by
  have hm := hv.member i g hg
  obtain ⟨hq, hqb⟩ := freeSlot_spec hv.shape.toSize
  set q := freeSlot v.tree with hqdef
  have hpos := hv.shape.pos
  have hwq : w q = none := by
    cases hw : w q with
    | none => rfl
    | some gq =>
      have := (hv.member q gq hw).lt
      exact absurd hqb ((hv.leaf q this).2 (by rw [hw]; rfl))
  have hqi : q ≠ i := by rintro e; rw [e, hg] at hwq; cases hwq
  set n := max v.leaves (q + 1) with hn
  have hqn : q < n := by omega
  have hin : i < n := lt_of_lt_of_le hm.lt (le_max_left _ _)
  obtain ⟨t0, e0, hs0', ha⟩ := addLeafAt_ok hv.shape.toSize hq (by omega) leaf
  rw [← hn] at hs0' ha
  have hs0 := add_shape hv.shape hs0' ha
  rw [← hn] at hs0
  have hk0 := add_keys P hv.keys (by rw [hpk]; exact hP.okPub js) ha
  have hleaf0 : ∀ k, k ≠ q → nd t0 (leafToNode k) = nd v.tree (leafToNode k) := by
    intro k hk
    rw [ha.nodes, if_neg (fun e => hk (leaf_inj e)), if_neg (fun e => dp_not_leaf hqn e k rfl)]
  have hb : nd v.tree (leafToNode i) ≠ .blank := (hv.leaf i hm.lt).2 (by rw [hg]; rfl)
  obtain ⟨l, hl⟩ := nd_leaf hv.shape hb
  rw [← hleaf0 i hqi.symm] at hl
  obtain ⟨us, e, hho⟩ := generate_ok P hs0 hk0 hin hl s rnd
  obtain ⟨lca, σ, f1, f2, f3, f4, f5, f6⟩ := join_path P hin hqn hqi s (Own.set (fun _ => none) (leafToNode q) js)
  have hsz : Size (rekey P t0 n i s l) n := hs0.toSize.of_len (rekey_length P s)
  have hdq := ((C21_u32 hs0.pos hs0.cap).2.2.2.2.2 q hqn).2.1
  have hdi := ((C21_u32 hs0.pos hs0.cap).2.2.2.2.2 i hin).2.1
  have key : ∀ j h, j ≠ i → w j = some h → _ := fun j h hji hj =>
    let hmj := hv.member j h hj
    have hjq : j ≠ q := by rintro e; rw [e, hwq] at hj; cases hj
    process_ok P hP hmj (props := [.add leaf q]) (t0 := t0)
      (by rw [List.foldlM_cons, applyProposal, e0]; rfl) hs0 hin hl (lt_of_lt_of_le hmj.lt (le_max_left _ _)) hji
      (by rw [hleaf0 j hjq]; exact (hv.leaf j hmj.lt).2 (by rw [hj]; rfl)) hho (add_holds P hmj.lt hjq hmj.holds ha)
  have hown : ownOf P n i s lca = some (P.next σ) := by
    unfold ownOf; rw [setAll_eq P (dp_nodup hin), if_pos f2, f4]
  refine ⟨q, n, t0, l, us, lca, σ,
    ⟨rekey P t0 n i s l, q, (ratchetUp P (P.next σ) ((directPath q n).drop ((directPath q n).idxOf lca))
      (Own.set (fun _ => none) (leafToNode q) js)).2, v.epoch + 1,
      derive P (rootOf P n i s) v.secrets.init (P.transcript v.transcript ⟨[.add leaf q], ⟨i, P.pub s, us⟩⟩),
      P.transcript v.transcript ⟨[.add leaf q], ⟨i, P.pub s, us⟩⟩, 0⟩,
    rfl, rfl, hqi, hwq, ha, hs0, hl, hho, f2, f3, f4, ?_, fun j h hji hj => (key j h hji hj).1, f6, ?_, ?_⟩
  · unfold addMember
    dsimp only
    rw [hm.tree, ← hqdef, e0, hm.leaf]
    dsimp only
    rw [e]
    dsimp only
    rw [hsz.leaves, hdi, hdq]
    dsimp only
    rw [f1]
    dsimp only
    rw [hown]
    dsimp only
    rw [if_pos (by rw [hpk]; exact hP.okPub js), advance_eq' P hm, hm.secrets, hpk]
    rfl
  · unfold joinFromWelcome
    dsimp only
    rw [hP.dec_enc]
    dsimp only
    rw [hP.split_cat _ _ (hP.secretNext _) hv.init]
    dsimp only
    rw [show (v.next P t0 n i s l ⟨[.add leaf q], ⟨i, P.pub s, us⟩⟩).tree = rekey P t0 n i s l from rfl, hsz.leaves, hdq]
    dsimp only
    rw [if_pos f3, f5]
    rfl
  · refine inv_next P hP hs0 hk0 hin hl (fun j h hj => ?_) fun j hj => ?_
    · split at hj
      · rename_i e
        rw [Option.some.injEq] at hj
        rw [← hj, e]
        exact ⟨rfl, rfl, rfl, rfl, rfl, hqn, join_holds P hs0 hin hqn hqi hpk ha f6⟩
      · rename_i hjq
        unfold deliver at hj
        split at hj
        · rename_i e
          rw [Option.some.injEq] at hj
          rw [← hj, e]
          exact committed_ok P hs0 hin
        · rename_i hji
          obtain ⟨h0, hw, rfl⟩ := Option.map_eq_some_iff.1 hj
          exact (key j h0 hji hw).2
    · split
      · rename_i e
        rw [ha.nodes, if_pos (by rw [e])]
        simp
      · rename_i hjq
        rw [hleaf0 j hjq, hv.leaf j (by omega)]
        unfold deliver
        split
        · rename_i e; rw [e, hg]; simp
        · rw [Option.isSome_map]

omit hP in
theorem send_ok {i : Nat} {g : GroupState M} (hg : w i = some g) (m : M) :
    Inv P (fun j => if j = i then some (encryptMessage P g m).1 else w j) v := by
  refine ⟨hv.shape, hv.keys, hv.init, fun j h hj => ?_, fun j hj => ?_⟩
  · split at hj
    · rename_i e
      have := hv.member i g hg
      rw [Option.some.injEq] at hj
      rw [← hj, e]
      exact ⟨this.tree, this.epoch, this.secrets, this.transcript, this.leaf, this.lt, this.holds⟩
    · exact hv.member j h hj
  · rw [hv.leaf j hj]
    split
    · rename_i e; rw [e, hg]; simp
    · rfl

/-- One valid step keeps the invariant, and nothing fails. -/
theorem step_ok {op : Op M} (hop : Valid P w op) : Fine P w op ∧ ∃ v', Inv P (step P w op).1 v' := by
  cases op with
  | update i s rnd =>
    obtain ⟨g, hg⟩ := Option.isSome_iff_exists.1 hop
    obtain ⟨l, us, -, -, h3, h4, h5⟩ := update_ok P hP hv hg s rnd
    refine ⟨⟨g, _, hg, by rw [h3], fun j h a b => (h4 j h a b).ok⟩, ?_⟩
    · unfold step
      dsimp only
      rw [hg]
      dsimp only
      rw [h3]
      exact ⟨_, h5⟩
  | add i leaf js s rnd rw =>
    obtain ⟨hpk, g, hg, hcap⟩ := hop
    rw [(hv.member i g hg).tree, hv.shape.toSize.leaves] at hcap
    obtain ⟨q, n, t0, l, us, lca, σ, hj, -, -, -, h1, -, -, -, -, -, -, -, h2, h3, -, h4, h5⟩ :=
      add_ok P hP hv hg hcap hpk s rnd rw
    refine ⟨⟨g, _, _, hg, by rw [h2], fun j h a b => (h3 j h a b).ok, h1, hj, h4⟩, ?_⟩
    · unfold step
      dsimp only
      rw [hg]
      dsimp only
      rw [h2]
      dsimp only
      rw [h4]
      exact ⟨_, h5⟩
  | remove i j s rnd =>
    obtain ⟨h1, h2, h3⟩ := hop
    obtain ⟨g, hg⟩ := Option.isSome_iff_exists.1 h1
    obtain ⟨t0, l, us, -, -, -, -, h4, h5, h6⟩ := remove_ok P hP hv hg h2 h3 s rnd
    refine ⟨⟨g, _, hg, by rw [h4], fun j h a b c => (h5 j h a b c).ok⟩, ?_⟩
    · unfold step
      dsimp only
      rw [hg]
      dsimp only
      rw [h4]
      exact ⟨_, h6⟩
  | send i m =>
    obtain ⟨g, hg⟩ := Option.isSome_iff_exists.1 hop
    refine ⟨trivial, v, ?_⟩
    unfold step
    dsimp only
    rw [hg]
    exact send_ok P hv hg m

end

theorem inv_reach (hP : Lawful P) {w : World M} (h : Reach P w) : ∃ v, Inv P w v := by
  induction h with
  | create founder s hpk => exact inv_founding P hP hpk
  | step op _ hv ih =>
    obtain ⟨v, ih⟩ := ih
    exact (step_ok P hP ih hv).2

end Verif.TreeKem

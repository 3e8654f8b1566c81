import Verif.GroupCgka.RelayProps
/-
With a faithful relay every client has one leaf at most: C73, C76 and C79 for that case.
-/
namespace Verif.GroupCgka

open Verif.TreeKem Verif.TreeMath

variable {M : Type} {P : Prims M}

def LeafInv (o : Nat) (y : Sys M) : Prop :=
  ∀ go, y.owner.group = some go →
    (∀ k c, cidAt go.tree k = some c → c = o ∨ (y.seen c = true ∧ y.kps c = none ∧ (y.clients c).isSome)) ∧
      ∀ k k' c, cidAt go.tree k = some c → cidAt go.tree k' = some c → k = k'

theorem leaf_start (o : Nat) (s : M) : LeafInv o (Sys.start P o s) := by
  intro go hgo
  unfold Sys.start newOwner at hgo
  cases hgo
  have h0 : ∀ k c, cidAt (create P (keyPackage P o s) s).tree k = some c → k = 0 ∧ c = o := by
    intro k c hk
    unfold cidAt create bootstrap nd leafToNode at hk
    cases k with
    | zero => refine ⟨rfl, ?_⟩; simpa [fromLeaves, keyPackage, eq_comm] using hk
    | succ k => simp [fromLeaves] at hk
  exact ⟨fun k c hk => .inl (h0 k c hk).2, fun k k' c h1 h2 => by rw [(h0 k c h1).1, (h0 k' c h2).1]⟩

theorem leaf_mono {o : Nat} {y y' : Sys M} (hl : LeafInv o y) (h1 : y'.owner.group.map (·.tree) = y.owner.group.map (·.tree))
    (h2 : ∀ c, y.seen c = true → y'.seen c = true)
    (h3 : ∀ c, y.kps c = none → (y.clients c).isSome → y'.kps c = none ∧ (y'.clients c).isSome) : LeafInv o y' := by
  intro go hgo
  rw [hgo, Option.map_some] at h1
  obtain ⟨g, hg, e⟩ := Option.map_eq_some_iff.1 h1.symm
  obtain ⟨k1, k2⟩ := hl g hg
  rw [e] at k1 k2
  refine ⟨fun k c hk => ?_, k2⟩
  rcases k1 k c hk with h | ⟨a, b, d⟩
  · exact .inl h
  · exact .inr ⟨h2 c a, h3 c b d⟩

theorem cid_member (hP : Lawful P) {w : World M} (hw : Reach P w) {i : Nat} {g : GroupState M} (hi : w i = some g) {k c : Nat}
    (hk : cidAt g.tree k = some c) : (w k).isSome := by
  rw [← C24_members P hP hw hi k]
  unfold cidAt nd at hk
  cases hx : g.tree[leafToNode k]? with
  | none => rw [hx] at hk; cases hk
  | some z =>
    rw [hx] at hk
    cases z with
    | leaf l => exact ⟨l, by rw [show 2 * k = leafToNode k by unfold leafToNode; omega]; exact hx⟩
    | blank => cases hk
    | parent _ _ => cases hk

theorem leaf_add (hP : Lawful P) {h : Hist M} {o : Nat} {y : Sys M} (hi : SysInv P h o y) (hl : LeafInv o y) {c : Nat} (s : M)
    (rnd : Nat → Nat → Nat) (rw' : Nat) (hroom : Room y) : LeafInv o (act P y (.add c s rnd rw')).1 := by
  unfold act
  dsimp only
  cases hk : y.kps c with
  | none => exact hl
  | some kp =>
    dsimp only
    cases hi.status c with
    | absent a1 a2 => rw [hk] at a2; cases a2
    | invited a b a1 a2 => rw [hk] at a2; cases a2
    | welcomed s a b wel q f hj a1 a2 => rw [hk] at a2; cases a2
    | joined s g g0 q f a1 a2 => rw [hk] at a2; cases a2
    | waiting s0 a1 a2 a3 a4 =>
      rw [hk, Option.some.injEq] at a2
      subst a2
      obtain ⟨g, g0, so, o1, o2, o3, o4⟩ := hi.owner
      have hgt : g.tree = g0.tree := by obtain ⟨n, rfl⟩ := o2; rfl
      obtain ⟨hcap, -⟩ := hroom g (by rw [o1])
      rw [hgt] at hcap
      have hw := hi.hist.reach h.E le_rfl
      obtain ⟨w', g', cm, wel, hj, m1, m2, m3, m4, m5, m6, m7, m8, m9⟩ :=
        moved_add P hP hw o3 hcap (leaf := ⟨c, P.pub s0, 0⟩) (js := s0) rfl s rnd rw'
      have e : onSignal P (some y.owner) s rnd rw' (.keyPackage c (some ⟨c, P.pub s0, 0⟩)) =
          (some ⟨some g', so, true⟩, .added c wel g'.epoch cm) := by
        unfold onSignal addMember
        rw [o1]
        dsimp only
        rw [add_like P o2 _ _ _ _ (by rw [m1]), m1]
        dsimp only
        rw [if_neg (by decide)]
        rfl
      rw [e]
      dsimp only
      obtain ⟨k1, k2⟩ := hl g (by rw [o1])
      rw [hgt] at k1 k2
      -- leaves other than the new one are old
      have hold : ∀ k x, k ≠ wel.joiner → cidAt g'.tree k = some x → cidAt g0.tree k = some x := by
        intro k x hne hx
        have hs := cid_member hP m2.reach m2.owner hx
        have : (h.W h.E k).isSome := by
          cases hwk : h.W h.E k with
          | some _ => rfl
          | none => rw [m9 k hne hwk] at hs; cases hs
        rw [← m2.cids k this id]
        exact hx
      have hnot : ∀ k, cidAt g0.tree k ≠ some c := by
        intro k hx
        rcases k1 k c hx with e | ⟨_, e, _⟩
        · rw [e, hi.notOwner] at a3; cases a3
        · rw [hk] at e; cases e
      intro go hgo
      cases hgo
      refine ⟨fun k x hx => ?_, fun k k' x hx hx' => ?_⟩
      · by_cases hne : k = wel.joiner
        · rw [hne, m7, Option.some.injEq] at hx
          cases hx
          exact .inr ⟨a3, put_same _ _ _, by rw [a1]; rfl⟩
        · have hx0 := hold k x hne hx
          rcases k1 k x hx0 with e | ⟨b1, b2, b3⟩
          · exact .inl e
          · refine .inr ⟨b1, ?_, b3⟩
            show put y.kps c none x = none
            unfold put
            split
            · rfl
            · exact b2
      · by_cases hne : k = wel.joiner
        · by_cases hne' : k' = wel.joiner
          · rw [hne, hne']
          · rw [hne, m7, Option.some.injEq] at hx
            cases hx
            exact absurd (hold k' _ hne' hx') (hnot k')
        · by_cases hne' : k' = wel.joiner
          · rw [hne', m7, Option.some.injEq] at hx'
            cases hx'
            exact absurd (hold k _ hne hx) (hnot k)
          · exact k2 k k' x (hold k x hne hx) (hold k' x hne' hx')

/-- What is left in the owner's tree after a kick. -/
theorem leaf_kick (hP : Lawful P) {h : Hist M} {o : Nat} {y : Sys M} (hi : SysInv P h o y) (hl : LeafInv o y) {c : Nat} (hc : c ≠ o)
    (s : M) (rnd : Nat → Nat → Nat) (hroom : Room y) :
    ∃ go go', Holds y none go ∧ Holds (act P y (.kick c s rnd)).1 none go' ∧
      (∀ k x, cidAt go'.tree k = some x ↔ cidAt go.tree k = some x ∧ x ≠ c) ∧
      (act P y (.kick c s rnd)).1.seen = y.seen ∧ (act P y (.kick c s rnd)).1.kps = y.kps ∧ (act P y (.kick c s rnd)).1.clients = y.clients := by
  obtain ⟨g, g0, so, o1, o2, o3, o4⟩ := hi.owner
  have hgt : g.tree = g0.tree ∧ g.epoch = g0.epoch := by obtain ⟨n, rfl⟩ := o2; exact ⟨rfl, rfl⟩
  obtain ⟨-, k2⟩ := hl g (by rw [o1])
  have hw := hi.hist.reach h.E le_rfl
  unfold act
  dsimp only
  refine ⟨g, ?_⟩
  cases hf : leafOfCid g.tree c with
  | none =>
    have e : removeByCid P y.owner c s rnd = (y.owner, .ok none) := by
      unfold removeByCid
      rw [o1]
      dsimp only
      rw [if_neg (by decide), hf]
    rw [e]
    dsimp only
    refine ⟨g, by unfold Holds; rw [o1], by unfold Holds; rw [o1], fun k x => ⟨fun hx => ⟨hx, ?_⟩, fun hx => hx.1⟩, rfl, rfl, rfl⟩
    rintro rfl
    unfold leafOfCid at hf
    rw [List.find?_eq_none] at hf
    unfold cidAt nd at hx
    cases hz : g.tree[leafToNode k]? with
    | none => rw [hz] at hx; cases hx
    | some z =>
      rw [hz] at hx
      cases z with
      | blank => cases hx
      | parent _ _ => cases hx
      | leaf l =>
        refine hf k (List.mem_range.2 ?_) ?_
        · have := (List.getElem?_eq_some_iff.1 hz).1
          unfold leafToNode at this
          unfold numLeaves
          omega
        · rw [hz]
          simpa using hx
  | some j =>
    obtain ⟨lj, hlj, hcj⟩ := leafOfCid_some hf
    have hcid : cidAt g.tree j = some c := by
      unfold cidAt nd
      rw [hlj]
      simp [hcj]
    have hj0 : (0 : Nat) ≠ j := by
      rintro rfl
      rw [hgt.1, o4, Option.some.injEq] at hcid
      exact hc hcid.symm
    have hjs : (h.W h.E j).isSome := cid_member hP hw o3 (by rw [← hgt.1]; exact hcid)
    obtain ⟨w', g', cm, m1, m2, m3⟩ := moved_remove P hP hw o3 hjs hj0 s rnd
    have e : removeByCid P y.owner c s rnd = (⟨some g', so, true⟩, .ok (some (cm, g'.epoch))) := by
      unfold removeByCid removeMember
      rw [o1]
      dsimp only
      rw [if_neg (by decide), hf]
      dsimp only
      rw [if_neg (by decide), remove_like P o2 _ _ _ (by rw [m1]), m1]
      rfl
    rw [e]
    dsimp only
    refine ⟨g', by unfold Holds; rw [o1], rfl, fun k x => ⟨fun hx => ?_, fun hx => ?_⟩, rfl, rfl, rfl⟩
    · have hs := cid_member hP m2.reach m2.owner hx
      have hkj : k ≠ j := by
        rintro rfl
        rw [m2.left k rfl] at hs
        cases hs
      have hsk : (h.W h.E k).isSome := by
        cases hwk : h.W h.E k with
        | some _ => rfl
        | none => rw [m3 k hwk] at hs; cases hs
      rw [m2.cids k hsk hkj, ← hgt.1] at hx
      refine ⟨hx, ?_⟩
      rintro rfl
      exact hkj (k2 k j x hx hcid)
    · have hkj : k ≠ j := by
        rintro rfl
        rw [hcid, Option.some.injEq] at hx
        exact hx.2 hx.1.symm
      have hsk := cid_member hP hw o3 (by rw [← hgt.1]; exact hx.1)
      rw [m2.cids k hsk hkj, ← hgt.1]
      exact hx.1

theorem leaf_act (hP : Lawful P) {h : Hist M} {o : Nat} {y : Sys M} (hi : SysInv P h o y) (hl : LeafInv o y) {a : Act M}
    (ha : Proper o y a) : LeafInv o (act P y a).1 := by
  cases a with
  | accept c =>
    refine leaf_mono hl rfl (fun x hx => ?_) fun _ b d => ⟨b, d⟩
    show put y.seen c true x = true
    unfold put
    split
    · rfl
    · exact hx
  | add c s rnd rw => exact leaf_add hP hi hl s rnd rw ha
  | kick c s rnd =>
    obtain ⟨go, go', h1, h2, h3, h4, h5, h6⟩ := leaf_kick hP hi hl ha.1 s rnd ha.2
    intro g hg
    unfold Holds at h1 h2
    dsimp only at h1 h2
    rw [h2, Option.some.injEq] at hg
    subst hg
    obtain ⟨k1, k2⟩ := hl go h1
    rw [h4, h5, h6]
    exact ⟨fun k x hx => k1 k x ((h3 k x).1 hx).1, fun k k' x hx hx' => k2 k k' x ((h3 k x).1 hx).1 ((h3 k' x).1 hx').1⟩
  | relay =>
    have : (act P y .relay).1.owner = y.owner ∧ (act P y .relay).1.seen = y.seen ∧ (act P y .relay).1.kps = y.kps ∧
        (act P y .relay).1.clients = y.clients := by
      unfold act
      dsimp only
      split <;> exact ⟨rfl, rfl, rfl, rfl⟩
    exact leaf_mono hl (by rw [this.1]) (fun _ hx => by rw [this.2.1]; exact hx) fun _ b d => by rw [this.2.2.1, this.2.2.2]; exact ⟨b, d⟩
  | client c s =>
    unfold act
    dsimp only
    split
    · exact hl
    · refine leaf_mono hl rfl (fun _ hx => hx) fun x b d => ?_
      dsimp only
      by_cases e : x = c
      · subst e
        obtain ⟨cl, hcl⟩ := Option.isSome_iff_exists.1 d
        rw [hcl]
        exact ⟨b, by rw [put_same]; rfl⟩
      · refine ⟨?_, by rw [put_other _ _ e]; exact d⟩
        cases (publish P (y.clients c) c s).2 with
        | some kp => exact (put_other _ _ e).trans b
        | none => exact b
    · refine leaf_mono hl rfl (fun _ hx => hx) fun x b d => ⟨b, ?_⟩
      dsimp only
      by_cases e : x = c
      · subst e
        obtain ⟨cl, hcl⟩ := Option.isSome_iff_exists.1 d
        rw [put_same, hcl]
        exact entry_stays P cl _ _ _ _
      · rw [put_other _ _ e]; exact d
  | leave c => exact leaf_mono hl rfl (fun _ hx => hx) fun _ b d => ⟨b, d⟩
  | send c m =>
    unfold act
    dsimp only
    split
    · exact hl
    · split
      · refine leaf_mono hl rfl (fun _ hx => hx) fun x b d => ⟨b, ?_⟩
        dsimp only
        unfold put
        split
        · rfl
        · exact d
      · exact hl
  | ownerSend m =>
    obtain ⟨g, g0, so, o1, o2, o3, o4⟩ := hi.owner
    unfold act encrypt
    rw [o1]
    exact leaf_mono hl (by rw [o1]; rfl) (fun _ hx => hx) fun _ b d => ⟨b, d⟩

theorem sys_leaf (hP : Lawful P) {o : Nat} {y : Sys M} (hy : SysReach P o y) : (∃ h, SysInv P h o y) ∧ LeafInv o y := by
  induction hy with
  | start s => exact ⟨inv_start P hP o s, leaf_start o s⟩
  | act a _ ha ih =>
    obtain ⟨⟨h, hi⟩, hl⟩ := ih
    exact ⟨(inv_act hP hi ha).1, leaf_act hP hi hl ha⟩

/-- The leaf at position `k` belongs to `c`. -/
def SitsAt (t : TreeKem.Tree M) (k c : Nat) : Prop := ∃ l, t[2 * k]? = some (.leaf l) ∧ l.cid = c

theorem sits_iff {t : TreeKem.Tree M} {k c : Nat} : SitsAt t k c ↔ cidAt t k = some c := by
  unfold SitsAt cidAt nd
  rw [show 2 * k = leafToNode k by unfold leafToNode; omega]
  cases hx : t[leafToNode k]? with
  | none => simp
  | some z => cases z <;> simp

/-- C73 with a faithful relay: only the owner and clients that the server let in have leaves, one each. Missing: a relay that puts
its own key package in place of a client's. -/
theorem C73_faithful_partial (hP : Lawful P) {o : Nat} {y : Sys M} (hy : SysReach P o y) {go : GroupState M} (hgo : Holds y none go) :
    (∀ k c, SitsAt go.tree k c → c = o ∨ y.seen c = true) ∧ ∀ k k' c, SitsAt go.tree k c → SitsAt go.tree k' c → k = k' := by
  obtain ⟨_, hl⟩ := sys_leaf hP hy
  obtain ⟨k1, k2⟩ := hl go hgo
  refine ⟨fun k c hk => ?_, fun k k' c h1 h2 => k2 k k' c (sits_iff.1 h1) (sits_iff.1 h2)⟩
  rcases k1 k c (sits_iff.1 hk) with e | e
  · exact .inl e
  · exact .inr e.1

/-- C76 with a faithful relay: a kick takes the client's leaf, and nothing else, out of the owner's tree. Missing: a relay or client
that gets several leaves with one cid. -/
theorem C76_faithful_partial (hP : Lawful P) {o : Nat} {y : Sys M} (hy : SysReach P o y) {c : Nat} (hc : c ≠ o) (s : M)
    (rnd : Nat → Nat → Nat) (hroom : Room y) :
    ∃ go go', Holds y none go ∧ Holds (act P y (.kick c s rnd)).1 none go' ∧ ∀ k x, SitsAt go'.tree k x ↔ SitsAt go.tree k x ∧ x ≠ c := by
  obtain ⟨⟨h, hi⟩, hl⟩ := sys_leaf hP hy
  obtain ⟨go, go', h1, h2, h3, _⟩ := leaf_kick hP hi hl hc s rnd hroom
  exact ⟨go, go', h1, h2, fun k x => by rw [sits_iff, sits_iff]; exact h3 k x⟩

/-- Out of the tree, with no key package under way and not to be let in again. -/
def Gone (c : Nat) (y : Sys M) : Prop :=
  y.seen c = true ∧ y.kps c = none ∧ (y.clients c).isSome ∧ ∀ go, y.owner.group = some go → ∀ k, ¬ SitsAt go.tree k c

theorem out_act (hP : Lawful P) {o : Nat} {y : Sys M} (hy : SysReach P o y) {c : Nat} (hout : Gone c y) {a : Act M}
    (ha : Proper o y a) : Gone c (act P y a).1 := by
  obtain ⟨⟨h, hi⟩, hl⟩ := sys_leaf hP hy
  obtain ⟨h1, h2, h3, h4⟩ := hout
  have same : ∀ y' : Sys M, y'.owner.group.map (·.tree) = y.owner.group.map (·.tree) → y'.seen c = true → y'.kps c = none →
      (y'.clients c).isSome → Gone c y' := by
    intro y' e1 e2 e3 e4
    refine ⟨e2, e3, e4, fun go hgo k hk => ?_⟩
    rw [hgo, Option.map_some] at e1
    obtain ⟨g, hg, e⟩ := Option.map_eq_some_iff.1 e1.symm
    exact h4 g hg k (by rw [e]; exact hk)
  cases a with
  | accept d =>
    refine same _ rfl ?_ h2 h3
    show put y.seen d true c = true
    unfold put
    split
    · rfl
    · exact h1
  | relay =>
    have : (act P y .relay).1.owner = y.owner ∧ (act P y .relay).1.seen = y.seen ∧ (act P y .relay).1.kps = y.kps ∧
        (act P y .relay).1.clients = y.clients := by
      unfold act
      dsimp only
      split <;> exact ⟨rfl, rfl, rfl, rfl⟩
    exact same _ (by rw [this.1]) (by rw [this.2.1]; exact h1) (by rw [this.2.2.1]; exact h2) (by rw [this.2.2.2]; exact h3)
  | leave d => exact same _ rfl h1 h2 h3
  | ownerSend m =>
    obtain ⟨g, g0, so, o1, o2, o3, o4⟩ := hi.owner
    unfold act encrypt
    rw [o1]
    exact same _ (by rw [o1]; rfl) h1 h2 h3
  | send d m =>
    unfold act
    dsimp only
    split
    · exact same _ rfl h1 h2 h3
    · split
      · refine same _ rfl h1 h2 ?_
        dsimp only
        unfold put
        split
        · rfl
        · exact h3
      · exact same _ rfl h1 h2 h3
  | client d s =>
    unfold act
    dsimp only
    split
    · exact same _ rfl h1 h2 h3
    · obtain ⟨cl, hcl⟩ := Option.isSome_iff_exists.1 h3
      by_cases e : c = d
      · subst e
        rw [hcl]
        exact same _ rfl h1 h2 (by dsimp only; rw [put_same]; rfl)
      · refine same _ rfl h1 ?_ (by dsimp only; rw [put_other _ _ e]; exact h3)
        dsimp only
        cases (publish P (y.clients d) d s).2 with
        | some kp => exact (put_other _ _ e).trans h2
        | none => exact h2
    · refine same _ rfl h1 h2 ?_
      dsimp only
      by_cases e : c = d
      · subst e
        obtain ⟨cl, hcl⟩ := Option.isSome_iff_exists.1 h3
        rw [put_same, hcl]
        exact entry_stays P cl _ _ _ _
      · rw [put_other _ _ e]; exact h3
  | kick d s rnd =>
    obtain ⟨go, go', e1, e2, e3, e4, e5, e6⟩ := leaf_kick hP hi hl ha.1 s rnd ha.2
    refine ⟨by rw [e4]; exact h1, by rw [e5]; exact h2, by rw [e6]; exact h3, fun g hg k hk => ?_⟩
    unfold Holds at e1 e2
    dsimp only at e1 e2
    rw [e2, Option.some.injEq] at hg
    subst hg
    exact h4 go e1 k (sits_iff.2 ((e3 k c).1 (sits_iff.1 hk)).1)
  | add d s rnd rw' =>
    by_cases e : c = d
    · subst e
      unfold act
      dsimp only
      rw [h2]
      exact same _ rfl h1 h2 h3
    · unfold act
      dsimp only
      cases hk : y.kps d with
      | none => exact same _ rfl h1 h2 h3
      | some kp =>
        dsimp only
        cases hi.status d with
        | absent a1 a2 => rw [hk] at a2; cases a2
        | invited a b a1 a2 => rw [hk] at a2; cases a2
        | welcomed s a b wel q f hj a1 a2 => rw [hk] at a2; cases a2
        | joined s g g0 q f a1 a2 => rw [hk] at a2; cases a2
        | waiting s0 a1 a2 a3 a4 =>
          rw [hk, Option.some.injEq] at a2
          subst a2
          obtain ⟨g, g0, so, o1, o2, o3, o4⟩ := hi.owner
          have hgt : g.tree = g0.tree := by obtain ⟨n, rfl⟩ := o2; rfl
          obtain ⟨hcap, -⟩ := (show Room y from ha) g (by rw [o1])
          rw [hgt] at hcap
          have hw := hi.hist.reach h.E le_rfl
          obtain ⟨w', g', cm, wel, hj, m1, m2, m3, m4, m5, m6, m7, m8, m9⟩ :=
            moved_add P hP hw o3 hcap (leaf := ⟨d, P.pub s0, 0⟩) (js := s0) rfl s rnd rw'
          have e : onSignal P (some y.owner) s rnd rw' (.keyPackage d (some ⟨d, P.pub s0, 0⟩)) =
              (some ⟨some g', so, true⟩, .added d wel g'.epoch cm) := by
            unfold onSignal addMember
            rw [o1]
            dsimp only
            rw [add_like P o2 _ _ _ _ (by rw [m1]), m1]
            dsimp only
            rw [if_neg (by decide)]
            rfl
          rw [e]
          dsimp only
          refine ⟨h1, ?_, h3, fun go hgo k hk' => ?_⟩
          · dsimp only
            unfold put
            split
            · rfl
            · exact h2
          · cases hgo
            have hx := sits_iff.1 hk'
            by_cases hne : k = wel.joiner
            · rw [hne, m7, Option.some.injEq] at hx
              rename_i hcd
              exact hcd hx.symm
            · have hs := cid_member hP m2.reach m2.owner hx
              have hsk : (h.W h.E k).isSome := by
                cases hwk : h.W h.E k with
                | some _ => rfl
                | none => rw [m9 k hne hwk] at hs; cases hs
              rw [m2.cids k hsk id, ← hgt] at hx
              exact h4 g (by rw [o1]) k (sits_iff.2 hx)

def ProperRun (P : Prims M) (o : Nat) (y : Sys M) : List (Act M) → Prop
  | [] => True
  | a :: as => Proper o y a ∧ ProperRun P o (act P y a).1 as

theorem out_run (hP : Lawful P) {o c : Nat} : ∀ (as : List (Act M)) {y : Sys M}, SysReach P o y → Gone c y → ProperRun P o y as →
    Gone c (runActs P y as)
  | [], _, _, h, _ => h
  | a :: as, y, hy, h, hp => out_run hP as (y := (act P y a).1) (.act a hy hp.1) (out_act hP hy h hp.1) hp.2

/-- C79 with a faithful relay, for a client that has joined: once kicked it has no leaf in the owner's tree, at any later time. Missing:
a client whose key package is still on its way when it is kicked. -/
theorem C79_joined_partial (hP : Lawful P) {o : Nat} {y : Sys M} (hy : SysReach P o y) {c : Nat} {g : GroupState M}
    (hg : Holds y (some c) g) (s : M) (rnd : Nat → Nat → Nat) {as : List (Act M)} (hp : ProperRun P o y (.kick c s rnd :: as))
    {go : GroupState M} (hgo : Holds (runActs P y (.kick c s rnd :: as)) none go) (k : Nat) : ¬ SitsAt go.tree k c := by
  obtain ⟨⟨h, hi⟩, hl⟩ := sys_leaf hP hy
  obtain ⟨g0, g1, e1, e2, e3, e4, e5, e6⟩ := leaf_kick hP hi hl hp.1.1 s rnd hp.1.2
  have hst : y.seen c = true ∧ y.kps c = none ∧ (y.clients c).isSome := by
    obtain ⟨cl, h1, h2⟩ := hg
    refine ⟨?_, ?_, by rw [h1]; rfl⟩
    all_goals
      cases hi.status c with
      | absent a1 => rw [h1] at a1; cases a1
      | invited a b a1 => rw [h1] at a1; cases a1
      | waiting s a1 => rw [h1] at a1; cases a1; cases h2
      | welcomed s a b wel q f hj a1 => rw [h1] at a1; cases a1; cases h2
      | joined s g1 g0 q f a1 a2 a3 => assumption
  have hout : Gone c (act P y (.kick c s rnd)).1 := by
    refine ⟨by rw [e4]; exact hst.1, by rw [e5]; exact hst.2.1, by rw [e6]; exact hst.2.2, fun g' hg' k hk => ?_⟩
    unfold Holds at e2
    dsimp only at e2
    rw [e2, Option.some.injEq] at hg'
    subst hg'
    exact ((e3 k c).1 (sits_iff.1 hk)).2 rfl
  exact (out_run hP as (.act _ hy hp.1) hout hp.2).2.2.2 go hgo k

end Verif.GroupCgka

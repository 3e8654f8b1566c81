import Verif.TreeKem.Secrecy
/-
The secrecy invariant, and C25 and C26.
-/
namespace Verif.TreeKem

open Verif.TreeMath Verif.Sym

/-! ### What one commit does -/

/-- The bad members. -/
def St.badMember (S : St) (k : Nat) : Prop := S.bad k = true ∧ (S.w k).isSome

/-- Uniform description of a commit (update, add or remove) at time `S.t`. -/
structure CommitStep (S : St) (c : Choice) (v : Shared Term) where
  t0 : Tree Term
  n : Nat
  l : LeafNode Term
  us : List (UpdNode Term)
  props : List (Proposal Term)
  lt : c.actor < n
  shape : Shape t0 n
  leaf : nd t0 (leafToNode c.actor) = .leaf l
  honest : Honest symPrims t0 n (.fresh (3 * S.t)) (directPath c.actor n) (copath c.actor n) us
  inv : Inv symPrims (S.next c).w (v.next symPrims t0 n c.actor (.fresh (3 * S.t)) l ⟨props, ⟨c.actor, .pk (.fresh (3 * S.t)), us⟩⟩)
  here : ((S.next c).w c.actor).isSome
  actorBad : (S.next c).bad c.actor = S.bad c.actor
  props_pub : ∀ sec leak, Pub sec leak (encList (props.map encProposal))
  wire : ∀ τ, Wire (step symPrims S.w (opOf S.t c)).2 τ →
    τ = encCommit ⟨props, ⟨c.actor, .pk (.fresh (3 * S.t)), us⟩⟩ ∨ isPk τ = true ∨
    τ = (v.next symPrims t0 n c.actor (.fresh (3 * S.t)) l ⟨props, ⟨c.actor, .pk (.fresh (3 * S.t)), us⟩⟩).transcript ∨
    ∃ i cid rnd rw b q lca σ, c = .add i cid rnd rw b ∧
      τ = .aenc (.pk (.fresh (3 * S.t + 1))) (.pair σ v.secrets.init) rw ∧
      secAt symPrims (.fresh (3 * S.t)) (directPath c.actor n) lca = some σ ∧ Cov n lca q ∧
      (b = true → (S.next c).badMember q)
  members : ∀ k h, (S.next c).w k = some h → (S.next c).bad k = true → ∀ y σ, h.own y = some σ →
    (k = c.actor ∧ ∃ a, σ = symPrims.next^[a] (.fresh (3 * S.t))) ∨
    (secAt symPrims (.fresh (3 * S.t)) (directPath c.actor n) y = some σ ∧ Cov n y k) ∨
    (∃ h0, S.w k = some h0 ∧ S.bad k = true ∧ h0.own y = some σ) ∨
    (σ = .fresh (3 * S.t + 1) ∧ ∃ i cid rnd rw, c = .add i cid rnd rw true)
  nodes : ∀ r pk, (nd t0 r).pk? = some pk →
    ((nd v.tree r).pk? = some pk ∧ ∀ k, S.badMember k → Cov v.leaves r k → (S.next c).badMember k ∧ Cov n r k) ∨
    (pk = .pk (.fresh (3 * S.t + 1)) ∧ ∀ i cid rnd rw b, c = .add i cid rnd rw b → b = true →
      ∃ k, (S.next c).badMember k ∧ Cov n r k) ∧ ∃ i cid rnd rw b, c = .add i cid rnd rw b

theorem own_of {n i : Nat} {s : Term} (hi : i < n) {y : Nat} {σ : Term} (h : ownOf symPrims n i s y = some σ) :
    ∃ a, σ = symPrims.next^[a] s := by
  unfold ownOf at h
  rw [setAll_eq symPrims (dp_nodup hi)] at h
  split at h
  · obtain ⟨a, _, h2⟩ := secAt_get symPrims h
    exact ⟨_, h2⟩
  · unfold Own.set at h
    split at h
    · rw [Option.some.injEq] at h
      exact ⟨0, h.symm⟩
    · cases h

theorem cov_node {n r k : Nat} {t : Tree Term} (hs : Shape t n) (hb : nd t r ≠ .blank) (hk : k < n) (hc : Cov n r k) :
    r = leafToNode k ∨ r ∈ directPath k n := by
  by_cases h0 : level r = 0
  · obtain ⟨i, rfl⟩ := eq_leaf_of_level h0
    rw [cov_leaf (lt_of_leaf_in (hs.lt hb))] at hc
    exact .inl (by rw [hc])
  · exact .inr ((mem_dp hk).2 ⟨hs.lt hb, h0, hc⟩)

theorem tree_pk {w : World Term} {v : Shared Term} (hv : Inv symPrims w v) {x : Node Term} {pk : Term} (hx : x ∈ v.tree)
    (h : x.pk? = some pk) : isPk pk = true := by
  obtain ⟨i, hi, rfl⟩ := List.getElem_of_mem hx
  refine hv.keys i pk ?_
  unfold nd
  rw [List.getElem?_eq_getElem hi]
  exact h

theorem step_update {M : Type} {P : Prims M} {w : World M} {i : Nat} {s : M} {rnd : Nat → Nat → Nat} {g g' : GroupState M}
    {c : Commit M} (hg : w i = some g) (h : commitUpdate P g s rnd = (g', .ok c)) :
    step P w (.update i s rnd) = (deliver P w i g' c, .commit c) := by
  unfold step; dsimp only; rw [hg]; dsimp only; rw [h]

theorem step_remove {M : Type} {P : Prims M} {w : World M} {i j : Nat} {s : M} {rnd : Nat → Nat → Nat} {g g' : GroupState M}
    {c : Commit M} (hg : w i = some g) (h : removeMember P g j s rnd = (g', .ok c)) :
    step P w (.remove i j s rnd) = (fun k => if k = j then none else deliver P w i g' c k, .commit c) := by
  unfold step; dsimp only; rw [hg]; dsimp only; rw [h]

theorem step_add {M : Type} {P : Prims M} {w : World M} {i rw : Nat} {s js : M} {leaf : LeafNode M} {rnd : Nat → Nat → Nat}
    {g g' hj : GroupState M} {c : Commit M} {wel : Welcome M} (hg : w i = some g)
    (h : addMember P g leaf s rnd rw = (g', .ok (c, wel))) (h4 : joinFromWelcome P wel js = .ok hj) :
    step P w (.add i leaf js s rnd rw) =
      (fun k => if k = wel.joiner then some hj else deliver P w i g' c k, .welcome c wel) := by
  unfold step; dsimp only; rw [hg]; dsimp only; rw [h]; dsimp only; rw [h4]

/-- Every valid commit is of this form. -/
theorem commit_step {S : St} {c : Choice} {v : Shared Term} (hv : Inv symPrims S.w v) (hop : Valid symPrims S.w (opOf S.t c))
    (hc : c.isCommit) : Nonempty (CommitStep S c v) := by
  have hP := symPrims_lawful
  cases c with
  | send i => exact absurd hc id
  | update i rnd =>
    obtain ⟨g, hg⟩ := Option.isSome_iff_exists.1 hop
    obtain ⟨l, us, h1, h2, h3, h4, h5⟩ := update_ok symPrims hP hv hg (.fresh (3 * S.t)) rnd
    have hst := step_update hg h3
    rw [show Op.update i (.fresh (3 * S.t)) rnd = opOf S.t (.update i rnd) from rfl] at hst
    have hw : (S.next (.update i rnd)).w = _ := congrArg Prod.fst hst
    dsimp only at hw
    have hb : (S.next (.update i rnd)).bad = S.bad := by
      show marks S.bad (.update i rnd) (step symPrims S.w (opOf S.t (.update i rnd))).2 = _
      rw [hst]; rfl
    have hi : i < v.leaves := (hv.member i g hg).lt
    refine ⟨⟨v.tree, v.leaves, l, us, [], hi, hv.shape, h1, h2, by rw [hw]; exact h5, ?_, by rw [hb], fun _ _ => trivial, ?_, ?_, ?_⟩⟩
    · rw [hw]; simp [deliver, Choice.actor]
    · intro τ hτ
      rw [hst] at hτ
      cases hτ with
      | commit => exact .inl rfl
    · intro k h hk hbk y σ hy
      rw [hw] at hk
      rw [hb] at hbk
      unfold deliver at hk
      split at hk
      · rename_i e
        cases hk
        exact .inl ⟨e, own_of hi hy⟩
      · rename_i hki
        obtain ⟨h0, hw0, rfl⟩ := Option.map_eq_some_iff.1 hk
        rw [(h4 k h0 hki hw0).own] at hy
        split at hy
        · rename_i e; exact .inr (.inl ⟨hy, e.2⟩)
        · exact .inr (.inr (.inl ⟨h0, hw0, hbk, hy⟩))
    · intro r pk hr
      refine .inl ⟨hr, fun k hk hcov => ⟨⟨by rw [hb]; exact hk.1, ?_⟩, hcov⟩⟩
      rw [hw]
      unfold deliver
      split
      · rfl
      · rw [Option.isSome_map]; exact hk.2
  | remove i j rnd =>
    obtain ⟨o1, o2, o3⟩ := hop
    obtain ⟨g, hg⟩ := Option.isSome_iff_exists.1 o1
    obtain ⟨gj, hgj⟩ := Option.isSome_iff_exists.1 o2
    have hjn := (hv.member j gj hgj).lt
    obtain ⟨t0, l, us, h0, hs0, h1, h2, h3, h4, h5⟩ := remove_ok symPrims hP hv hg o2 o3 (.fresh (3 * S.t)) rnd
    have hst := step_remove hg h3
    rw [show Op.remove i j (.fresh (3 * S.t)) rnd = opOf S.t (.remove i j rnd) from rfl] at hst
    have hw : (S.next (.remove i j rnd)).w = _ := congrArg Prod.fst hst
    dsimp only at hw
    have hb : (S.next (.remove i j rnd)).bad = fun k => if k = j then false else S.bad k := by
      show marks S.bad (.remove i j rnd) (step symPrims S.w (opOf S.t (.remove i j rnd))).2 = _
      rw [hst]; rfl
    have hi : i < v.leaves := (hv.member i g hg).lt
    refine ⟨⟨t0, v.leaves, l, us, [.remove j], hi, hs0, h1, h2, by rw [hw]; exact h5, ?_, ?_,
      fun _ _ => ⟨⟨trivial, trivial⟩, trivial⟩, ?_, ?_, ?_⟩⟩
    · rw [hw]; dsimp only [Choice.actor]; rw [if_neg o3]; simp [deliver]
    · rw [hb]; dsimp only [Choice.actor]; rw [if_neg o3]
    · intro τ hτ
      rw [hst] at hτ
      cases hτ with
      | commit => exact .inl rfl
    · intro k h hk hbk y σ hy
      rw [hw] at hk
      rw [hb] at hbk
      dsimp only at hk hbk
      split at hk
      · cases hk
      · rename_i hkj
        rw [if_neg hkj] at hbk
        unfold deliver at hk
        split at hk
        · rename_i e
          cases hk
          exact .inl ⟨e, own_of hi hy⟩
        · rename_i hki
          obtain ⟨h0, hw0, rfl⟩ := Option.map_eq_some_iff.1 hk
          rw [(h4 k h0 hki hkj hw0).own] at hy
          split at hy
          · rename_i e; exact .inr (.inl ⟨hy, e.2⟩)
          · exact .inr (.inr (.inl ⟨h0, hw0, hbk, hy⟩))
    · intro r pk hr
      rw [h0] at hr
      split at hr
      · cases hr
      · rename_i hne
        refine .inl ⟨hr, fun k hk hcov => ?_⟩
        have hkj : k ≠ j := by
          rintro rfl
          refine hne (cov_node hv.shape ?_ hjn hcov)
          intro e; rw [e] at hr; cases hr
        refine ⟨⟨by rw [hb]; dsimp only; rw [if_neg hkj]; exact hk.1, ?_⟩, hcov⟩
        rw [hw]
        dsimp only
        rw [if_neg hkj]
        unfold deliver
        split
        · rfl
        · rw [Option.isSome_map]; exact hk.2
  | add i cid rnd rw b =>
    obtain ⟨hpk, g, hg, hcap⟩ := hop
    rw [(hv.member i g hg).tree, hv.shape.toSize.leaves] at hcap
    obtain ⟨q, n, t0, l, us, lca, σ, hj, hq1, hn, hqi, h1, ha, hs0, hl, hho, f1, f2, f3, h2, h3, h3', h4, h5⟩ :=
      add_ok symPrims hP hv hg hcap hpk (.fresh (3 * S.t)) rnd rw
    have hst := step_add hg h2 h4
    rw [show Op.add i ⟨cid, .pk (.fresh (3 * S.t + 1)), 0⟩ (.fresh (3 * S.t + 1)) (.fresh (3 * S.t)) rnd rw =
      opOf S.t (.add i cid rnd rw b) from rfl] at hst
    have hw : (S.next (.add i cid rnd rw b)).w = _ := congrArg Prod.fst hst
    dsimp only at hw
    have hb : (S.next (.add i cid rnd rw b)).bad = fun k => if k = q then b else S.bad k := by
      show marks S.bad (.add i cid rnd rw b) (step symPrims S.w (opOf S.t (.add i cid rnd rw b))).2 = _
      rw [hst]; rfl
    have hi : i < n := by rw [hn]; exact lt_of_lt_of_le (hv.member i g hg).lt (le_max_left _ _)
    have hqn : q < n := by omega
    have hqm : ((S.next (.add i cid rnd rw b)).w q).isSome := by rw [hw]; dsimp only; rw [if_pos rfl]; rfl
    have hqb : b = true → (S.next (.add i cid rnd rw b)).badMember q := by
      intro e
      exact ⟨by rw [hb]; dsimp only; rw [if_pos rfl]; exact e, hqm⟩
    refine ⟨⟨t0, n, l, us, _, hi, hs0, hl, hho, by rw [hw]; exact h5, ?_, ?_, ?_, ?_, ?_, ?_⟩⟩
    · rw [hw]; dsimp only [Choice.actor]; rw [if_neg hqi.symm]; simp [deliver]
    · rw [hb]; dsimp only [Choice.actor]; rw [if_neg hqi.symm]
    · exact fun _ _ => ⟨⟨trivial, ⟨trivial, trivial, trivial⟩, trivial⟩, trivial⟩
    · intro τ hτ
      rw [hst] at hτ
      cases hτ with
      | welcomeCommit => exact .inl rfl
      | sealed =>
        exact .inr (.inr (.inr ⟨i, cid, rnd, rw, b, q, lca, _, rfl, rfl, f3, ((mem_dp hqn).1 f2).2.2, hqb⟩))
      | transcript => exact .inr (.inr (.inl rfl))
      | key hx hp => exact .inr (.inl (tree_pk h5 hx hp))
    · intro k h hk hbk y σ hy
      rw [hw] at hk
      rw [hb] at hbk
      dsimp only at hk hbk
      split at hk
      · rename_i e
        cases hk
        rw [if_pos e] at hbk
        rw [h3'] at hy
        split at hy
        · rename_i e'
          refine .inr (.inl ⟨hy, ?_⟩)
          rw [e]
          exact ((mem_dp hqn).1 e'.2).2.2
        · split at hy
          · rw [Option.some.injEq] at hy
            exact .inr (.inr (.inr ⟨hy.symm, i, cid, rnd, rw, by rw [hbk]⟩))
          · cases hy
      · rename_i hkq
        rw [if_neg hkq] at hbk
        unfold deliver at hk
        split at hk
        · rename_i e
          cases hk
          exact .inl ⟨e, own_of hi hy⟩
        · rename_i hki
          obtain ⟨h0, hw0, rfl⟩ := Option.map_eq_some_iff.1 hk
          rw [(h3 k h0 hki hw0).own] at hy
          split at hy
          · rename_i e; exact .inr (.inl ⟨hy, e.2⟩)
          · exact .inr (.inr (.inl ⟨h0, hw0, hbk, hy⟩))
    · intro r pk hr
      by_cases hrq : r = leafToNode q
      · rw [ha.nodes, if_pos hrq, Node.pk?, Option.some.injEq] at hr
        refine .inr ⟨⟨hr.symm, fun _ _ _ _ b' hcb hb' => ⟨q, ?_, by rw [hrq, cov_leaf hqn]⟩⟩, i, cid, rnd, rw, b, rfl⟩
        injection hcb with _ _ _ _ e
        exact hqb (by rw [e]; exact hb')
      · rw [ha.pk hrq] at hr
        refine .inl ⟨hr, fun k hk hcov => ?_⟩
        have hkq : k ≠ q := by
          rintro rfl
          have := hk.2
          rw [h1] at this
          cases this
        refine ⟨⟨by rw [hb]; dsimp only; rw [if_neg hkq]; exact hk.1, ?_⟩, cov_grow (by omega) hcov⟩
        rw [hw]
        dsimp only
        rw [if_neg hkq]
        unfold deliver
        split
        · rfl
        · rw [Option.isSome_map]; exact hk.2

/-! ### The invariant -/

def nOf : Option (GroupState Term) → Nat
  | some g => numLeaves g.tree
  | none => 0

def esOf : Option (GroupState Term) → Term
  | some g => g.secrets.epochSecret
  | none => .lit ""

def joinInitOf (S : St) : Choice → Option Term
  | .add i _ _ _ true => (S.w i).map (·.secrets.init)
  | _ => none

def momentOf (S : St) (c : Choice) : Moment :=
  ⟨S.t, c.actor, nOf ((S.next c).w c.actor), (S.next c).badMember, esOf ((S.next c).w c.actor), c.isCommit, joinInitOf S c⟩

structure SInv (Mo : Moment → Prop) (S : St) (v : Shared Term) (m : Moment) : Prop where
  inv : Inv symPrims S.w v
  derived : ∃ a b c, v.secrets = derive symPrims a b c
  mo : Mo m
  commit : m.commit
  epoch : m.epochSecret = v.secrets.epochSecret
  bad : ∀ k, m.bad k ↔ S.badMember k
  nodes : ∀ r pk, (nd v.tree r).pk? = some pk → ∃ σ, pk = .pk σ ∧ (PubM Mo σ → ∃ k, S.badMember k ∧ Cov v.leaves r k)
  held : ∀ k h, S.w k = some h → S.bad k = true → ∀ y σ, h.own y = some σ → PubM Mo σ
  trans : PubM Mo v.transcript
  knows : ∀ τ, S.knows τ → PubM Mo τ

theorem isPk_pub {Mo : Moment → Prop} {τ : Term} (h : isPk τ = true) : PubM Mo τ := by
  cases τ with
  | pk s => exact trivial
  | _ => cases h

/-- The state of a bad member is known. -/
theorem held_pub {Mo : Moment → Prop} {S : St} {v : Shared Term} (hv : Inv symPrims S.w v)
    (hder : ∃ a b c, v.secrets = derive symPrims a b c) (hep : PubM Mo v.secrets.epochSecret) (htr : PubM Mo v.transcript)
    {k : Nat} {h : GroupState Term} (hk : S.w k = some h) (hown : ∀ y σ, h.own y = some σ → PubM Mo σ) {τ : Term}
    (hτ : Held h τ) : PubM Mo τ := by
  have hm := hv.member k h hk
  have hs := hm.secrets
  obtain ⟨a, b, c, hd⟩ := hder
  rw [hd] at hs hep
  cases hτ with
  | own ho => exact hown _ _ ho
  | epochSecret => rw [hs]; exact hep
  | encryption => rw [hs]; exact pub_labelled hep
  | confirmation => rw [hs]; exact pub_labelled hep
  | membership => rw [hs]; exact pub_labelled hep
  | init => rw [hs]; exact pub_labelled hep
  | transcript => rw [hm.transcript]; exact htr
  | key hx hp => rw [hm.tree] at hx; exact isPk_pub (tree_pk hv hx hp)

theorem encList_pub {sec : Nat → Prop} {leak : Term → Prop} : ∀ {ts : List Term}, (∀ t ∈ ts, Pub sec leak t) →
    Pub sec leak (encList ts)
  | [], _ => trivial
  | t :: _, h => ⟨h t (by simp), encList_pub fun x hx => h x (List.mem_cons_of_mem _ hx)⟩

theorem honest_pub {Mo : Moment → Prop} {t0 : Tree Term} {n : Nat} (hs : Shape t0 n) {bad : Nat → Prop}
    (hn : ∀ r pk, (nd t0 r).pk? = some pk → ∃ σ, pk = .pk σ ∧ (PubM Mo σ → ∃ k, bad k ∧ Cov n r k)) :
    ∀ (dp cp : List Nat) (us : List (UpdNode Term)) (cur : Term), Honest symPrims t0 n cur dp cp us → dp.Nodup →
    List.Forall₂ (fun c p => Sub n c p) cp dp → (∀ c ∈ cp, c < nodeWidth n) →
    (∀ y τ, secAt symPrims cur dp y = some τ → (∃ k, bad k ∧ Cov n y k) → PubM Mo τ) →
    ∀ u ∈ us, PubM Mo (encUpd u)
  | [], [], [], _, _, _, _, _, _ => by simp
  | [], [], _ :: _, _, h, _, _, _, _ => absurd h id
  | [], _ :: _, _, _, h, _, _, _, _ => absurd h id
  | _ :: _, [], _, _, h, _, _, _, _ => absurd h id
  | _ :: _, _ :: _, [], _, h, _, _, _, _ => absurd h id
  | x :: dp, c :: cp, u :: us, cur, h, hd, hsub, hcp, H => by
    obtain ⟨h1, h2, h3⟩ := h
    rw [List.nodup_cons] at hd
    rw [List.forall₂_cons] at hsub
    intro u' hu'
    rcases List.mem_cons.1 hu' with rfl | hu'
    · refine ⟨by rw [h1]; exact trivial, encList_pub fun ct hct => ?_⟩
      have hrel : ∀ {rs cts : List _}, List.Forall₂ (SealedTo symPrims t0 (symPrims.next cur)) rs cts → ∀ ct ∈ cts,
          ∃ r ∈ rs, SealedTo symPrims t0 (symPrims.next cur) r ct := by
        intro rs cts hf
        induction hf with
        | nil => intro ct h; simp at h
        | cons ha _ ih =>
          intro ct h
          rcases List.mem_cons.1 h with rfl | h
          · exact ⟨_, by simp, ha⟩
          · obtain ⟨r, hr, hs⟩ := ih ct h
            exact ⟨r, List.mem_cons_of_mem _ hr, hs⟩
      obtain ⟨r, hr, pk, rnd, hp, rfl⟩ := hrel h2 ct hct
      obtain ⟨σ, rfl, hσ⟩ := hn r pk hp
      intro hpub
      obtain ⟨k, hk, hcov⟩ := hσ hpub
      obtain ⟨-, hrc, -⟩ := resP_mem hs _ _ _ (hcp c (by simp)) hr
      exact H x _ (by rw [secAt_cons, if_pos rfl]) ⟨k, hk, hsub.1.cov (hrc.cov hcov)⟩
    · refine honest_pub hs hn dp cp us _ h3 hd.2 hsub.2 (fun c hc => hcp c (List.mem_cons_of_mem _ hc)) (fun y τ hy hk => ?_) u' hu'
      refine H y τ ?_ hk
      rw [secAt_cons, if_neg]
      · exact hy
      · rintro rfl
        exact hd.1 ((secAt_isSome symPrims).1 (by rw [hy]; rfl))

theorem joinInit_some {S : St} {c : Choice} (h : joinInitOf S c ≠ none) : ∃ i cid rnd rw, c = .add i cid rnd rw true := by
  cases c with
  | add i cid rnd rw b =>
    cases b with
    | true => exact ⟨i, cid, rnd, rw, rfl⟩
    | false => exact absurd rfl h
  | update _ _ => exact absurd rfl h
  | remove _ _ _ => exact absurd rfl h
  | send _ => exact absurd rfl h

theorem actor_here {S : St} {c : Choice} (hop : Valid symPrims S.w (opOf S.t c)) : (S.w c.actor).isSome := by
  cases c with
  | update _ _ => exact hop
  | add i cid rnd rw b => obtain ⟨_, g, hg, _⟩ := hop; exact Option.isSome_iff_exists.2 ⟨g, hg⟩
  | remove _ _ _ => exact hop.1
  | send _ => exact hop

theorem sinv_commit {Mo : Moment → Prop} (hG : Good Mo) {S : St} {v : Shared Term} {m : Moment} (h : SInv Mo S v m) {c : Choice}
    (hop : Valid symPrims S.w (opOf S.t c)) (hc : c.isCommit) (hm' : Mo (momentOf S c)) :
    ∃ v', SInv Mo (S.next c) v' (momentOf S c) := by
  obtain ⟨cs⟩ := commit_step h.inv hop hc
  set cm : Commit Term := ⟨cs.props, ⟨c.actor, .pk (.fresh (3 * S.t)), cs.us⟩⟩ with hcm
  set v' := v.next symPrims cs.t0 cs.n c.actor (.fresh (3 * S.t)) cs.l cm with hv'
  have hinv : Inv symPrims (S.next c).w v' := cs.inv
  obtain ⟨g, hg⟩ := Option.isSome_iff_exists.1 cs.here
  have hgm := hinv.member _ g hg
  have en : (momentOf S c).n = cs.n := by
    show nOf ((S.next c).w c.actor) = _
    rw [hg, nOf, hgm.tree]
    exact hinv.shape.toSize.leaves
  have ee : (momentOf S c).epochSecret = v'.secrets.epochSecret := by
    show esOf ((S.next c).w c.actor) = _
    rw [hg, esOf, hgm.secrets]
  have epath : path (momentOf S c) = directPath c.actor cs.n := by
    show directPath c.actor (momentOf S c).n = _
    rw [en]
  have hsec : ∀ y τ, secAt symPrims (.fresh (3 * S.t)) (directPath c.actor cs.n) y = some τ →
      (PubM Mo τ ↔ ∃ k, (S.next c).badMember k ∧ Cov cs.n y k) := by
    intro y τ hy
    have := pub_secAt hG hm' hc (y := y) (τ := τ) (by rw [epath]; exact hy)
    rw [en] at this
    exact this
  have hleaf : PubM Mo (.fresh (3 * S.t)) ↔ (S.next c).badMember c.actor := pub_leaf hG hm'
  have hjoin : PubM Mo (.fresh (3 * S.t + 1)) ↔ joinInitOf S c ≠ none := pub_joiner hG hm'
  have hnodes0 : ∀ r pk, (nd cs.t0 r).pk? = some pk →
      ∃ σ, pk = .pk σ ∧ (PubM Mo σ → ∃ k, (S.next c).badMember k ∧ Cov cs.n r k) := by
    intro r pk hr
    rcases cs.nodes r pk hr with ⟨h1, h2⟩ | ⟨⟨h1, h2⟩, h3⟩
    · obtain ⟨σ, h3, h4⟩ := h.nodes r pk h1
      refine ⟨σ, h3, fun hp => ?_⟩
      obtain ⟨k, hk, hcov⟩ := h4 hp
      exact ⟨k, h2 k hk hcov⟩
    · refine ⟨_, h1, fun hp => ?_⟩
      obtain ⟨i, cid, rnd, rw, e⟩ := joinInit_some (hjoin.1 hp)
      exact h2 i cid rnd rw true e rfl
  have hn1 : 1 ≤ cs.n := cs.shape.pos
  have hcmPub : PubM Mo (encCommit cm) := by
    refine ⟨cs.props_pub _ _, trivial, trivial, encList_pub fun τ hτ => ?_⟩
    obtain ⟨u, hu, rfl⟩ := List.mem_map.1 hτ
    exact honest_pub cs.shape hnodes0 _ _ _ _ cs.honest (dp_nodup cs.lt) (cp_sub hn1 _ _ (leaf_in cs.lt))
      (fun c hc => cp_in cs.lt hc) (fun y τ hy hk => (hsec y τ hy).2 hk) u hu
  have htr : PubM Mo v'.transcript := pub_labelled ⟨h.trans, hcmPub⟩
  have hheld : ∀ k h, (S.next c).w k = some h → (S.next c).bad k = true → ∀ y σ, h.own y = some σ → PubM Mo σ := by
    intro k hh hk hb y σ hy
    have hbm : (S.next c).badMember k := ⟨hb, by rw [hk]; rfl⟩
    rcases cs.members k hh hk hb y σ hy with ⟨e, a, rfl⟩ | ⟨h1, h2⟩ | ⟨h0, h1, h2, h3⟩ | ⟨rfl, i, cid, rnd, rw, e⟩
    · rw [e] at hbm
      exact pub_iter (hleaf.2 hbm) a
    · exact (hsec y σ h1).2 ⟨k, hbm, h2⟩
    · exact h.held k h0 h1 h2 y σ h3
    · refine hjoin.2 ?_
      have := actor_here hop
      rw [e] at this ⊢
      obtain ⟨g, hg⟩ := Option.isSome_iff_exists.1 this
      show (S.w i).map _ ≠ none
      rw [show S.w i = some g from hg]
      simp
  refine ⟨v', hinv, ⟨_, _, _, rfl⟩, hm', hc, ee, fun k => Iff.rfl, fun r pk hr => ?_, hheld, htr, fun τ hτ => ?_⟩
  · rcases rekey_cases (l := cs.l) symPrims cs.shape cs.lt (.fresh (3 * S.t)) r with ⟨e, hnd⟩ | ⟨e, σ, hσ, hnd⟩ | ⟨_, _, hnd⟩
    · rw [show v'.tree = rekey symPrims cs.t0 cs.n c.actor (.fresh (3 * S.t)) cs.l from rfl, hnd, Node.pk?, Option.some.injEq] at hr
      refine ⟨_, hr.symm, fun hp => ⟨c.actor, hleaf.1 hp, ?_⟩⟩
      show Cov cs.n r c.actor
      rw [e, cov_leaf cs.lt]
    · rw [show v'.tree = rekey symPrims cs.t0 cs.n c.actor (.fresh (3 * S.t)) cs.l from rfl, hnd, Node.pk?, Option.some.injEq] at hr
      exact ⟨_, hr.symm, fun hp => (hsec r σ hσ).1 hp⟩
    · rw [show v'.tree = rekey symPrims cs.t0 cs.n c.actor (.fresh (3 * S.t)) cs.l from rfl, hnd] at hr
      exact hnodes0 r pk hr
  · rcases hτ with hτ | hτ | ⟨k, hh, hb, hk, hτ⟩
    · exact h.knows τ hτ
    · rcases cs.wire τ hτ with rfl | hp | rfl | ⟨i, cid, rnd, rw, b, q, lca, σ, e, rfl, h1, h2, h3⟩
      · exact hcmPub
      · exact isPk_pub hp
      · exact htr
      · intro hj
        have hji := hjoin.1 hj
        obtain ⟨i', cid', rnd', rw', e'⟩ := joinInit_some hji
        have hb : b = true := by
          rw [e] at e'
          injection e'
        refine ⟨(hsec lca σ h1).2 ⟨q, h3 hb, h2⟩, ?_⟩
        have hth := actor_here hop
        obtain ⟨g, hg⟩ := Option.isSome_iff_exists.1 hth
        have hji2 : joinInitOf S c = some v.secrets.init := by
          rw [e] at hg ⊢
          rw [hb]
          show (S.w i).map _ = _
          rw [show S.w i = some g from hg, Option.map_some, (h.inv.member i g hg).secrets]
        obtain ⟨x, hx⟩ := hG.init _ _ hm' hji2
        rw [hx]
        rw [hx] at hji2
        exact .inl ⟨_, hm', hc, .inr (.inr hji2)⟩
    · refine held_pub hinv ⟨_, _, _, rfl⟩ ?_ htr hk (hheld k hh hk hb) hτ
      rw [← ee]
      have hk' : (S.next c).w k = some hh := hk
      exact (pub_epoch hG hm' hc).2 ⟨k, hb, by rw [hk']; rfl⟩

theorem sinv_send {Mo : Moment → Prop} (hG : Good Mo) {S : St} {v : Shared Term} {m : Moment} (h : SInv Mo S v m) {i : Nat}
    (hop : Valid symPrims S.w (opOf S.t (.send i))) (hm' : Mo (momentOf S (.send i))) : SInv Mo (S.next (.send i)) v m := by
  obtain ⟨g, hg⟩ := Option.isSome_iff_exists.1 hop
  have hst : step symPrims S.w (opOf S.t (.send i)) = (fun j => if j = i then
      some (encryptMessage symPrims g (.fresh (3 * S.t + 2))).1 else S.w j,
      .app (encryptMessage symPrims g (.fresh (3 * S.t + 2))).2) := by
    unfold step opOf; dsimp only; rw [hg]
  have hw : (S.next (.send i)).w = _ := congrArg Prod.fst hst
  dsimp only at hw
  have hb : (S.next (.send i)).bad = S.bad := by
    show marks S.bad (.send i) (step symPrims S.w (opOf S.t (.send i))).2 = _
    rfl
  have hbm : ∀ k, (S.next (.send i)).badMember k ↔ S.badMember k := by
    intro k
    unfold St.badMember
    rw [hb, hw]
    dsimp only
    split
    · rename_i e; rw [e, hg]; simp
    · rfl
  have hinv : Inv symPrims (S.next (.send i)).w v := by
    rw [hw]; exact send_ok symPrims h.inv hg _
  have hheld : ∀ k hh, (S.next (.send i)).w k = some hh → (S.next (.send i)).bad k = true → ∀ y σ, hh.own y = some σ →
      PubM Mo σ := by
    intro k hh hk hbk y σ hy
    rw [hb] at hbk
    rw [hw] at hk
    dsimp only at hk
    split at hk
    · rename_i e
      cases hk
      exact h.held i g hg (by rw [← e]; exact hbk) y σ hy
    · exact h.held k hh hk hbk y σ hy
  refine ⟨hinv, h.derived, h.mo, h.commit, h.epoch, fun k => (h.bad k).trans (hbm k).symm, fun r pk hr => ?_, hheld, h.trans, fun τ hτ => ?_⟩
  · obtain ⟨σ, h1, h2⟩ := h.nodes r pk hr
    refine ⟨σ, h1, fun hp => ?_⟩
    obtain ⟨k, hk, hcov⟩ := h2 hp
    exact ⟨k, (hbm k).2 hk, hcov⟩
  · rcases hτ with hτ | hτ | ⟨k, hh, hbk, hk, hτ⟩
    · exact h.knows τ hτ
    · rw [hst] at hτ
      cases hτ with
      | app =>
        intro hp
        have hp2 := (pub_other hG (l := "message") (by decide) hp).1
        rw [(h.inv.member i g hg).secrets] at hp2
        obtain ⟨a, b, c, hd⟩ := h.derived
        have hp3 : PubM Mo v.secrets.epochSecret := by
          rw [hd] at hp2 ⊢
          exact pub_other hG (l := "encryption") (by decide) hp2
        rw [← h.epoch] at hp3
        obtain ⟨k, hk⟩ := (pub_epoch hG h.mo h.commit).1 hp3
        exact (pub_message hG hm').2 ⟨k, (hbm k).2 ((h.bad k).1 hk)⟩
    · refine held_pub hinv h.derived ?_ h.trans hk (hheld k hh hk hbk) hτ
      rw [← h.epoch]
      refine (pub_epoch hG h.mo h.commit).2 ⟨k, (h.bad k).2 ((hbm k).1 ⟨hbk, ?_⟩)⟩
      have hk' : (S.next (.send i)).w k = some hh := hk
      rw [hk']; rfl

/-! ### Whole executions -/

theorem run_append (S : St) (a b : List Choice) : S.run (a ++ b) = (S.run a).run b := by
  induction a generalizing S with
  | nil => rfl
  | cons c a ih => exact ih _

theorem ok_append {S : St} {a b : List Choice} (h : S.Ok (a ++ b)) : S.Ok a ∧ (S.run a).Ok b := by
  induction a generalizing S with
  | nil => exact ⟨trivial, h⟩
  | cons c a ih => exact ⟨⟨h.1, (ih h.2).1⟩, (ih h.2).2⟩

theorem run_t (S : St) (a : List Choice) : (S.run a).t = S.t + a.length := by
  induction a generalizing S with
  | nil => rfl
  | cons c a ih =>
    rw [St.run, ih, List.length_cons]
    show S.t + 1 + _ = _
    omega

/-- The functional part of the invariant. -/
def FInv (w : World Term) (v : Shared Term) : Prop := Inv symPrims w v ∧ ∃ a b c, v.secrets = derive symPrims a b c

theorem finv_next {S : St} {v : Shared Term} (h : FInv S.w v) {c : Choice} (hop : Valid symPrims S.w (opOf S.t c)) :
    ∃ v', FInv (S.next c).w v' := by
  by_cases hc : c.isCommit
  · obtain ⟨cs⟩ := commit_step h.1 hop hc
    exact ⟨_, cs.inv, _, _, _, rfl⟩
  · cases c with
    | send i =>
      obtain ⟨g, hg⟩ := Option.isSome_iff_exists.1 hop
      refine ⟨v, ?_, h.2⟩
      show Inv symPrims (step symPrims S.w (opOf S.t (.send i))).1 v
      unfold step opOf
      dsimp only
      rw [hg]
      exact send_ok symPrims h.1 hg _
    | update _ _ => exact absurd trivial hc
    | add _ _ _ _ _ => exact absurd trivial hc
    | remove _ _ _ => exact absurd trivial hc

theorem finv_run {S : St} {v : Shared Term} (h : FInv S.w v) {cs : List Choice} (hok : S.Ok cs) : ∃ v', FInv (S.run cs).w v' := by
  induction cs generalizing S v with
  | nil => exact ⟨v, h⟩
  | cons c cs ih =>
    obtain ⟨v', h'⟩ := finv_next h hok.1
    exact ih h' hok.2

def startShared (cid : Nat) : Shared Term :=
  ⟨[.leaf ⟨cid, .pk (.fresh 0), 0⟩], 1, 0, derive symPrims (symPrims.next (.fresh 0)) symPrims.zero symPrims.zero, symPrims.zero⟩

def startMoment (cid : Nat) (b : Bool) : Moment :=
  ⟨0, 0, 1, (St.start cid b).badMember, (startShared cid).secrets.epochSecret, True, none⟩

/-- All moments of an execution. -/
def moments (cid : Nat) (b : Bool) (cs : List Choice) (m : Moment) : Prop :=
  m = startMoment cid b ∨ ∃ pre c post, cs = pre ++ c :: post ∧ m = momentOf ((St.start cid b).run pre) c

theorem start_inv (cid : Nat) (b : Bool) : Inv symPrims (St.start cid b).w (startShared cid) := by
  obtain ⟨v, hv⟩ := inv_founding symPrims symPrims_lawful (founder := ⟨cid, .pk (.fresh 0), 0⟩) (s := .fresh 0) rfl
  have hm := hv.member 0 _ (show founding symPrims _ _ 0 = some (create symPrims _ _) from rfl)
  have ht : (startShared cid).tree = v.tree := hm.tree
  have hn : v.leaves = 1 := by
    have h1 := hv.shape.len
    have h2 := hv.shape.pos
    rw [← ht] at h1
    have : [Node.leaf (⟨cid, .pk (.fresh 0), 0⟩ : LeafNode Term)].length = 2 * v.leaves - 1 := h1
    rw [List.length_singleton] at this
    omega
  have he : startShared cid = v := by
    have h3 := hm.epoch
    have h4 := hm.secrets
    have h5 := hm.transcript
    obtain ⟨t, n, e, s, tr⟩ := v
    dsimp only at ht hn h3 h4 h5
    subst hn
    rw [← ht, ← h3, ← h4, ← h5]
    rfl
  rw [he]
  exact hv

theorem good_moments {cid : Nat} {b : Bool} {cs : List Choice} (hok : (St.start cid b).Ok cs) : Good (moments cid b cs) := by
  have hstart : FInv (St.start cid b).w (startShared cid) := ⟨start_inv cid b, _, _, _, rfl⟩
  have hd : directPath 0 1 = [] := by decide +kernel
  refine ⟨?_, ?_, ?_, ?_⟩
  · rintro m m' (rfl | ⟨pre, c, post, e, rfl⟩) (rfl | ⟨pre', c', post', e', rfl⟩) ht
    · rfl
    · exfalso
      have : 0 = ((St.start cid b).run pre').t := ht
      rw [run_t] at this
      have : (St.start cid b).t = 1 := rfl
      omega
    · exfalso
      have : ((St.start cid b).run pre).t = 0 := ht
      rw [run_t] at this
      have : (St.start cid b).t = 1 := rfl
      omega
    · have h : ((St.start cid b).run pre).t = ((St.start cid b).run pre').t := ht
      rw [run_t, run_t] at h
      have hl : pre.length = pre'.length := by omega
      rw [e] at e'
      obtain ⟨rfl, e2⟩ := List.append_inj e' hl
      injection e2 with e2 _
      rw [e2]
  · rintro m (rfl | ⟨pre, c, post, e, rfl⟩) hc
    · exact Nat.one_pos
    · rw [e] at hok
      obtain ⟨h1, h2, _⟩ := ok_append hok
      obtain ⟨v, hv⟩ := finv_run hstart h1
      obtain ⟨st⟩ := commit_step hv.1 h2 hc
      obtain ⟨g, hg⟩ := Option.isSome_iff_exists.1 st.here
      have hgm := st.inv.member _ g hg
      show c.actor < nOf _
      rw [hg, nOf, hgm.tree, st.inv.shape.toSize.leaves]
      exact st.lt
  · rintro m (rfl | ⟨pre, c, post, e, rfl⟩) hc
    · refine ⟨symPrims.zero, symPrims.zero, ?_⟩
      show labelled "epoch" _ = labelled "epoch" (.pair (rootOf symPrims 1 0 (.fresh 0)) _)
      unfold rootOf
      rw [if_pos hd]
    · rw [e] at hok
      obtain ⟨h1, h2, _⟩ := ok_append hok
      obtain ⟨v, hv⟩ := finv_run hstart h1
      obtain ⟨st⟩ := commit_step hv.1 h2 hc
      obtain ⟨g, hg⟩ := Option.isSome_iff_exists.1 st.here
      have hgm := st.inv.member _ g hg
      have hh : ∃ x y, esOf ((((St.start cid b).run pre).next c).w c.actor) = labelled "epoch" (.pair (rootOf symPrims
          (nOf ((((St.start cid b).run pre).next c).w c.actor)) c.actor (.fresh (3 * ((St.start cid b).run pre).t))) (.pair x y)) := by
        rw [hg, esOf, nOf, hgm.tree, st.inv.shape.toSize.leaves, hgm.secrets]
        exact ⟨_, _, rfl⟩
      exact hh
  · rintro m τ (rfl | ⟨pre, c, post, e, rfl⟩) hj
    · cases hj
    · rw [e] at hok
      obtain ⟨h1, h2, _⟩ := ok_append hok
      obtain ⟨v, hv⟩ := finv_run hstart h1
      have hj' : joinInitOf ((St.start cid b).run pre) c = some τ := hj
      obtain ⟨i, cid', rnd, rw, rfl⟩ := joinInit_some (by rw [hj']; simp)
      obtain ⟨g, hg, rfl⟩ := Option.map_eq_some_iff.1 hj'
      rw [(hv.1.member i g hg).secrets]
      obtain ⟨x, y, z, hd⟩ := hv.2
      rw [hd]
      exact ⟨_, rfl⟩

theorem sinv_start {cid : Nat} {b : Bool} {cs : List Choice} (hok : (St.start cid b).Ok cs) :
    SInv (moments cid b cs) (St.start cid b) (startShared cid) (startMoment cid b) := by
  have hG := good_moments hok
  have hm : moments cid b cs (startMoment cid b) := .inl rfl
  have hleaf : PubM (moments cid b cs) (.fresh 0) ↔ (St.start cid b).badMember 0 := pub_leaf hG hm
  have hw0 : (St.start cid b).w 0 = some (create symPrims ⟨cid, .pk (.fresh 0), 0⟩ (.fresh 0)) := rfl
  have hbad : ∀ k, (St.start cid b).bad k = true → k = 0 ∧ b = true := by
    intro k hk
    have : (k == 0 && b) = true := hk
    rw [Bool.and_eq_true, beq_iff_eq] at this
    exact this
  have hheld : ∀ k h, (St.start cid b).w k = some h → (St.start cid b).bad k = true → ∀ y σ, h.own y = some σ →
      PubM (moments cid b cs) σ := by
    intro k h hk hb y σ hy
    obtain ⟨rfl, hb'⟩ := hbad k hb
    rw [hw0] at hk
    cases hk
    have hy : (if y = leafToNode 0 then some (Term.fresh 0) else none) = some σ := hy
    split at hy
    · cases hy
      exact hleaf.2 ⟨hb, by rw [hw0]; rfl⟩
    · cases hy
  refine ⟨start_inv cid b, ⟨_, _, _, rfl⟩, hm, trivial, rfl, fun k => Iff.rfl, fun r pk hr => ?_, hheld, trivial, fun τ hτ => ?_⟩
  · cases r with
    | zero =>
      have hr : some (Term.pk (.fresh 0)) = some pk := hr
      cases hr
      refine ⟨_, rfl, fun hp => ⟨0, hleaf.1 hp, ?_⟩⟩
      exact (cov_leaf (n := 1) (i := 0) (l := 0) Nat.one_pos).2 rfl
    | succ r =>
      rw [nd_out (by simp [startShared])] at hr
      cases hr
  · obtain ⟨h, hb, hk, hτ⟩ := hτ
    have hb0 : (St.start cid b).bad 0 = true := by
      show (0 == 0 && b) = true
      rw [hb]; rfl
    refine held_pub (start_inv cid b) ⟨_, _, _, rfl⟩ ?_ trivial (k := 0) hk (hheld 0 h hk hb0) hτ
    exact (pub_epoch hG hm trivial).2 ⟨0, hb0, by rw [hw0]; rfl⟩

/-- The invariant holds all along. -/
theorem sinv_run {cid : Nat} {b : Bool} {cs : List Choice} (hok : (St.start cid b).Ok cs) : ∀ (pre post : List Choice),
    cs = pre ++ post → ∃ v m, SInv (moments cid b cs) ((St.start cid b).run pre) v m := by
  intro pre
  induction pre using List.reverseRecOn with
  | nil => intro _ _; exact ⟨_, _, sinv_start hok⟩
  | append_singleton pre c ih =>
    intro post e
    have e' : cs = pre ++ c :: post := by rw [e]; simp
    obtain ⟨v, m, h⟩ := ih _ e'
    have hG := good_moments hok
    have hm : moments cid b cs (momentOf ((St.start cid b).run pre) c) := .inr ⟨pre, c, post, e', rfl⟩
    have hop : Valid symPrims ((St.start cid b).run pre).w (opOf ((St.start cid b).run pre).t c) := by
      rw [e'] at hok
      exact (ok_append hok).2.1
    rw [run_append]
    show ∃ v m, SInv (moments cid b cs) (((St.start cid b).run pre).next c) v m
    by_cases hc : c.isCommit
    · obtain ⟨v', h'⟩ := sinv_commit hG h hop hc hm
      exact ⟨v', _, h'⟩
    · cases c with
      | send i => exact ⟨v, m, sinv_send hG h hop hm⟩
      | update _ _ => exact absurd trivial hc
      | add _ _ _ _ _ => exact absurd trivial hc
      | remove _ _ _ => exact absurd trivial hc

theorem clean_secret {cid : Nat} {b : Bool} {pre post : List Choice} (hok : (St.start cid b).Ok (pre ++ post))
    (hclean : ((St.start cid b).run pre).Clean) {i : Nat} {g : GroupState Term} (hg : ((St.start cid b).run pre).w i = some g) :
    ¬ PubM (moments cid b (pre ++ post)) g.secrets.epochSecret ∧ ∃ x y z, g.secrets = derive symPrims x y z := by
  have hG := good_moments hok
  obtain ⟨v, m, h⟩ := sinv_run hok pre post rfl
  rw [(h.inv.member i g hg).secrets]
  refine ⟨fun hp => ?_, h.derived⟩
  rw [← h.epoch] at hp
  obtain ⟨k, hk⟩ := (pub_epoch hG h.mo h.commit).1 hp
  have hk := (h.bad k).1 hk
  have h1 := hk.1
  rw [hclean k hk.2] at h1
  exact absurd h1 (by decide)

theorem knows_pub {cid : Nat} {b : Bool} {cs : List Choice} (hok : (St.start cid b).Ok cs) {τ : Term}
    (h : Derives ((St.start cid b).run cs).knows τ) : PubM (moments cid b cs) τ := by
  obtain ⟨v, m, hs⟩ := sinv_run hok cs [] (by simp)
  exact pub_of_derives hs.knows h

end Verif.TreeKem

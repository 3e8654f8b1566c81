import Verif.TreeKem.Secret
/-
C77: forward secrecy with respect to the secret with which a member joined.
-/
namespace Verif.TreeKem

open Verif.TreeMath Verif.Sym

variable {K : Term → Prop}

/-- The secrets in a member's state can be computed from `K`. -/
structure Computes (K : Term → Prop) (h : GroupState Term) : Prop where
  own : ∀ y σ, h.own y = some σ → Derives K σ
  epoch : Derives K h.secrets.epochSecret
  init : Derives K h.secrets.init
  transcript : Derives K h.transcript
  keys : ∀ τ ∈ epochKeys h, Derives K τ

theorem d_label {l : String} {τ : Term} (h : Derives K τ) : Derives K (labelled l τ) := .hash (.pair (.lit l) h)

theorem d_derive {root init tr : Term} (h1 : Derives K root) (h2 : Derives K init) (h3 : Derives K tr) :
    Derives K (derive symPrims root init tr).epochSecret := d_label (.pair h1 (.pair h2 h3))

theorem d_encList {ts : List Term} (h : Derives K (encList ts)) : ∀ t ∈ ts, Derives K t := by
  induction ts with
  | nil => simp
  | cons a ts ih =>
    intro t ht
    rcases List.mem_cons.1 ht with rfl | ht
    · exact .fst h
    · exact ih (.snd h) t ht

theorem d_cts {c : Commit Term} (h : Derives K (encCommit c)) : ∀ u ∈ c.path.nodes, ∀ ct ∈ u.cts, Derives K ct := by
  intro u hu ct hct
  have h1 : Derives K (encList (c.path.nodes.map encUpd)) := .snd (.snd (.snd h))
  exact d_encList (.snd (d_encList h1 (encUpd u) (List.mem_map_of_mem hu))) ct hct

theorem d_tryOpen {own : Own Term} (ho : ∀ y σ, own y = some σ → Derives K σ) : ∀ {rs : List Nat} {cts : List Term} {m : Term},
    (∀ ct ∈ cts, Derives K ct) → tryOpen symPrims own rs cts = some (.ok m) → Derives K m
  | [], _, _, _, h => by cases h
  | r :: rs, cts, m, hc, h => by
    unfold tryOpen at h
    split at h
    · exact d_tryOpen ho (fun ct hct => hc ct (List.mem_of_mem_tail hct)) h
    · rename_i s hs
      rw [Option.some.injEq] at h
      split at h
      · cases h
      · rename_i ct hct
        have hct' : Derives K ct := hc ct (List.mem_of_mem_head? hct)
        split at h
        · cases h
        · rename_i m' hm
          split at h
          · cases h
            have hm : asymDec s ct = some m := hm
            unfold asymDec at hm
            split at hm
            · split at hm
              · rename_i e
                cases hm
                subst e
                exact .adec hct' (ho r _ hs)
              · cases hm
            · cases hm
          · cases h

theorem d_ratchet : ∀ {dp : List Nat} {cur : Term} {own : Own Term}, Derives K cur → (∀ y σ, own y = some σ → Derives K σ) →
    Derives K (ratchetUp symPrims cur dp own).1 ∧ ∀ y σ, (ratchetUp symPrims cur dp own).2 y = some σ → Derives K σ
  | [], cur, own, h, ho => ⟨h, ho⟩
  | [x], cur, own, h, ho => by
    refine ⟨h, fun y σ hy => ?_⟩
    unfold ratchetUp Own.set at hy
    dsimp only at hy
    split at hy
    · cases hy; exact h
    · exact ho y σ hy
  | x :: y :: dp, cur, own, h, ho => by
    unfold ratchetUp
    refine d_ratchet (d_label h) fun z σ hz => ?_
    unfold Own.set at hz
    split at hz
    · cases hz; exact h
    · exact ho z σ hz

theorem d_findOpen {t : TreeKem.Tree Term} {own : Own Term} (ho : ∀ y σ, own y = some σ → Derives K σ) :
    ∀ {cp dp : List Nat} {us : List (UpdNode Term)} {r : Term × Own Term}, (∀ u ∈ us, ∀ ct ∈ u.cts, Derives K ct) →
      findOpen symPrims t own cp dp us = .ok r → Derives K r.1 ∧ ∀ y σ, r.2 y = some σ → Derives K σ
  | [], _, _, _, _, h => by cases h
  | c :: cp, dp, us, r, hc, h => by
    unfold findOpen at h
    split at h
    · cases h
    · rename_i rs _
      have hcts : ∀ ct ∈ (us.head?.map (·.cts)).getD [], Derives K ct := by
        intro ct hct
        cases us with
        | nil => simp at hct
        | cons u us => exact hc u (by simp) ct hct
      split at h
      · exact d_findOpen ho (fun u hu => hc u (List.mem_of_mem_tail hu)) h
      · rename_i r' hr'
        cases r' with
        | err => cases h
        | panic => cases h
        | ok ps =>
          cases h
          exact d_ratchet (d_tryOpen ho hcts hr') ho

theorem computes_of {h : GroupState Term} {root init tr : Term} (hs : h.secrets = derive symPrims root init tr) (ht : h.transcript = tr)
    (h1 : Derives K root) (h2 : Derives K init) (h3 : Derives K tr) (ho : ∀ y σ, h.own y = some σ → Derives K σ) : Computes K h := by
  have he : Derives K h.secrets.epochSecret := by rw [hs]; exact d_derive h1 h2 h3
  refine ⟨ho, he, ?_, by rw [ht]; exact h3, ?_⟩
  · rw [hs] at he ⊢; exact d_label he
  · intro τ hτ
    unfold epochKeys at hτ
    rw [hs] at he hτ
    simp only [List.mem_cons, List.not_mem_nil, or_false] at hτ
    rcases hτ with rfl | rfl | rfl | rfl
    · exact he
    all_goals exact d_label he

theorem computes_process {h : GroupState Term} (hh : Computes K h) {c : Commit Term} (hc : Derives K (encCommit c)) :
    Computes K (processCommit symPrims h c).1 := by
  unfold processCommit
  split
  · exact hh
  · rename_i t0 _
    split
    · exact ⟨hh.own, hh.epoch, hh.init, hh.transcript, hh.keys⟩
    · exact ⟨hh.own, hh.epoch, hh.init, hh.transcript, hh.keys⟩
    · rename_i t root own ha
      have hf : ∃ t1 cp dp, findOpen symPrims t1 h.own cp dp c.path.nodes = .ok (root, own) := by
        unfold applyUpdatePath at ha
        split at ha
        · rename_i dp cp _ _
          split at ha
          · cases ha
          · split at ha
            · cases ha
            · split at ha
              · cases ha
              · split at ha
                · cases ha
                · rename_i t1 _
                  exact ⟨t1, cp, dp, congrArg Prod.snd ha⟩
              · cases ha
        · cases ha
      obtain ⟨t1, cp, dp, hf⟩ := hf
      obtain ⟨d1, d2⟩ := d_findOpen hh.own (d_cts hc) hf
      exact computes_of rfl rfl d1 hh.init (d_label (.pair hh.transcript hc)) d2

theorem computes_join {w : Welcome Term} {js : Term} {h : GroupState Term} (hj : joinFromWelcome symPrims w js = .ok h)
    (hs : Derives K js) (hw : Derives K w.sealed) (ht : Derives K w.transcript) : Computes K h := by
  unfold joinFromWelcome at hj
  split at hj
  · cases hj
  · rename_i payload hp
    have hp : asymDec js w.sealed = some payload := hp
    have dp : Derives K payload := by
      unfold asymDec at hp
      split at hp
      · rename_i s' m r e
        split at hp
        · rename_i e'
          cases hp
          subst e'
          rw [e] at hw
          exact .adec hw hs
        · cases hp
      · cases hp
    split at hj
    · cases hj
    · rename_i ls pi hsp
      have hsp : splitT payload = some (ls, pi) := hsp
      have d2 : Derives K ls ∧ Derives K pi := by
        unfold splitT at hsp
        split at hsp
        · split at hsp
          · cases hsp
            exact ⟨.fst dp, .snd dp⟩
          · cases hsp
        · cases hsp
      split at hj
      · cases hj
      · rename_i dq _
        split at hj
        · cases hj
          have ho : ∀ y σ, (Own.set (fun _ => none) (leafToNode w.joiner) js : Own Term) y = some σ → Derives K σ := by
            intro y σ hy
            unfold Own.set at hy
            split at hy
            · cases hy; exact hs
            · cases hy
          obtain ⟨r1, r2⟩ := d_ratchet (dp := dq.drop (dq.idxOf w.lca)) d2.1 ho
          exact computes_of rfl rfl r1 d2.2 ht r2
        · cases hj

/-- The operation is not a commit by `q`, nor does it remove `q`. -/
def Choice.spares (q : Nat) : Choice → Prop
  | .update i _ => i ≠ q
  | .add i _ _ _ _ => i ≠ q
  | .remove i j _ => i ≠ q ∧ j ≠ q
  | .send _ => True

theorem computes_next {S : St} {v : Shared Term} (hv : Inv symPrims S.w v) {c : Choice} (hop : Valid symPrims S.w (opOf S.t c)) {q : Nat}
    (hq : c.spares q) {h : GroupState Term} (hw : S.w q = some h) (hh : Computes K h) (hk : ∀ τ, (S.next c).knows τ → K τ) :
    ∃ h', (S.next c).w q = some h' ∧ Computes K h' := by
  have hfine := (step_ok symPrims symPrims_lawful hv hop).1
  have hwire : ∀ τ, Wire (step symPrims S.w (opOf S.t c)).2 τ → K τ := fun τ hτ => hk τ (.inr (.inl hτ))
  show ∃ h', (step symPrims S.w (opOf S.t c)).1 q = some h' ∧ Computes K h'
  cases c with
  | update i rnd =>
    obtain ⟨g, cm, h1, h2, h3⟩ := hfine
    have hp : commitUpdate symPrims g (.fresh (3 * S.t)) rnd = ((commitUpdate symPrims g (.fresh (3 * S.t)) rnd).1, .ok cm) := by rw [← h2]
    have hst := step_update h1 hp
    rw [show Op.update i (.fresh (3 * S.t)) rnd = opOf S.t (.update i rnd) from rfl] at hst
    rw [hst] at hwire ⊢
    refine ⟨_, ?_, computes_process hh (.ax (hwire _ .commit))⟩
    show deliver _ _ _ _ _ q = _
    unfold deliver
    rw [if_neg (Ne.symm (show i ≠ q from hq)), hw]
    rfl
  | add i cid rnd rw b =>
    obtain ⟨g, cm, wel, h1, h2, h3, h4, hj, h5⟩ := hfine
    have hp : addMember symPrims g ⟨cid, .pk (.fresh (3 * S.t + 1)), 0⟩ (.fresh (3 * S.t)) rnd rw =
      ((addMember symPrims g ⟨cid, .pk (.fresh (3 * S.t + 1)), 0⟩ (.fresh (3 * S.t)) rnd rw).1, .ok (cm, wel)) := by rw [← h2]
    have hst := step_add h1 hp h5
    rw [show Op.add i ⟨cid, .pk (.fresh (3 * S.t + 1)), 0⟩ (.fresh (3 * S.t + 1)) (.fresh (3 * S.t)) rnd rw =
      opOf S.t (.add i cid rnd rw b) from rfl] at hst
    rw [hst] at hwire ⊢
    refine ⟨_, ?_, computes_process hh (.ax (hwire _ .welcomeCommit))⟩
    dsimp only
    rw [if_neg (by rintro rfl; rw [hw] at h4; cases h4)]
    unfold deliver
    rw [if_neg (Ne.symm (show i ≠ q from hq)), hw]
    rfl
  | remove i j rnd =>
    obtain ⟨g, cm, h1, h2, h3⟩ := hfine
    have hp : removeMember symPrims g j (.fresh (3 * S.t)) rnd = ((removeMember symPrims g j (.fresh (3 * S.t)) rnd).1, .ok cm) := by rw [← h2]
    have hst := step_remove h1 hp
    rw [show Op.remove i j (.fresh (3 * S.t)) rnd = opOf S.t (.remove i j rnd) from rfl] at hst
    rw [hst] at hwire ⊢
    refine ⟨_, ?_, computes_process hh (.ax (hwire _ .commit))⟩
    dsimp only
    rw [if_neg (Ne.symm hq.2)]
    unfold deliver
    rw [if_neg (Ne.symm hq.1), hw]
    rfl
  | send i =>
    obtain ⟨g, hg⟩ := Option.isSome_iff_exists.1 (show (S.w i).isSome from hop)
    unfold opOf step
    dsimp only
    rw [hg]
    dsimp only
    by_cases e : q = i
    · rw [if_pos e]
      rw [e, hg, Option.some.injEq] at hw
      subst hw
      exact ⟨_, rfl, hh.own, hh.epoch, hh.init, hh.transcript, hh.keys⟩
    · rw [if_neg e]
      exact ⟨h, hw, hh⟩

theorem knows_run {S : St} : ∀ {cs : List Choice} {τ : Term}, S.knows τ → (S.run cs).knows τ
  | [], _, h => h
  | c :: cs, _, h => knows_run (S := S.next c) (cs := cs) (.inl h)

theorem computes_run : ∀ {mid : List Choice} {S : St} {v : Shared Term}, FInv S.w v → S.Ok mid → ∀ {q : Nat},
    (∀ c ∈ mid, c.spares q) → ∀ {h : GroupState Term}, S.w q = some h → Computes K h → (∀ τ, (S.run mid).knows τ → K τ) →
    ∃ h', (S.run mid).w q = some h' ∧ Computes K h'
  | [], _, _, _, _, _, _, h, hw, hh, _ => ⟨h, hw, hh⟩
  | c :: mid, S, v, hv, hok, q, hq, h, hw, hh, hk => by
    obtain ⟨v', hv'⟩ := finv_next hv hok.1
    obtain ⟨h', hw', hh'⟩ := computes_next hv.1 hok.1 (hq c (by simp)) hw hh fun τ hτ => hk τ (knows_run (cs := mid) hτ)
    exact computes_run hv' hok.2 (fun c' hc' => hq c' (by simp [hc'])) hw' hh' hk

/-- C77 is false of the code: a member that never commits, and nobody but the owner does, keeps the leaf secret it joined with. With
that secret and the traffic, the keys of every epoch since it joined can be computed, however many epochs ago. -/
theorem C77_counterexample {cid cid' i q rw : Nat} {b : Bool} {rnd : Nat → Nat → Nat} {pre mid post : List Choice}
    (hok : (St.start cid false).Ok (pre ++ .add i cid' rnd rw b :: mid ++ post))
    (hq0 : ((St.start cid false).run pre).w q = none) (hq1 : (((St.start cid false).run pre).next (.add i cid' rnd rw b)).w q ≠ none)
    (hmid : ∀ c ∈ mid, c.spares q) {k : Nat} {g : GroupState Term}
    (hg : ((St.start cid false).run (pre ++ .add i cid' rnd rw b :: mid)).w k = some g) {τ : Term} (hτ : τ ∈ epochKeys g) :
    Derives (fun σ => ((St.start cid false).run (pre ++ .add i cid' rnd rw b :: mid ++ post)).knows σ ∨
      σ = .fresh (3 * (pre.length + 1) + 1)) τ := by
  set K : Term → Prop := fun σ => ((St.start cid false).run (pre ++ .add i cid' rnd rw b :: mid ++ post)).knows σ ∨
      σ = .fresh (3 * (pre.length + 1) + 1) with hK
  have h1 := (ok_append hok).1
  obtain ⟨hpre, hmid'⟩ := ok_append h1
  obtain ⟨v, hv⟩ := finv_run (S := St.start cid false) ⟨start_inv cid false, _, _, _, rfl⟩ hpre
  set S := (St.start cid false).run pre with hS
  have ht : S.t = pre.length + 1 := by rw [hS, run_t]; show 1 + _ = _; omega
  have hend : ∀ σ, ((S.next (.add i cid' rnd rw b)).run mid).knows σ → K σ := by
    intro σ hσ
    refine .inl ?_
    rw [run_append, run_append]
    exact knows_run hσ
  have hrun : (St.start cid false).run (pre ++ .add i cid' rnd rw b :: mid) = (S.next (.add i cid' rnd rw b)).run mid := by
    rw [run_append]; rfl
  have hstep : ∃ h, (S.next (.add i cid' rnd rw b)).w q = some h ∧ Computes K h := by
    obtain ⟨g, cm, wel, h1, h2, h3, h4, hj, h5⟩ := (step_ok symPrims symPrims_lawful hv.1 hmid'.1).1
    have hp : addMember symPrims g ⟨cid', .pk (.fresh (3 * S.t + 1)), 0⟩ (.fresh (3 * S.t)) rnd rw =
      ((addMember symPrims g ⟨cid', .pk (.fresh (3 * S.t + 1)), 0⟩ (.fresh (3 * S.t)) rnd rw).1, .ok (cm, wel)) := by rw [← h2]
    have hst := step_add h1 hp h5
    rw [show Op.add i ⟨cid', .pk (.fresh (3 * S.t + 1)), 0⟩ (.fresh (3 * S.t + 1)) (.fresh (3 * S.t)) rnd rw =
      opOf S.t (.add i cid' rnd rw b) from rfl] at hst
    have hw : (S.next (.add i cid' rnd rw b)).w = _ := congrArg Prod.fst hst
    have hwire : ∀ τ, Wire (.welcome cm wel) τ → K τ := by
      intro τ hτ
      refine hend τ (knows_run (.inr (.inl ?_)))
      rw [hst]
      exact hτ
    have hqj : q = wel.joiner := by
      by_contra hne
      apply hq1
      rw [hw]
      dsimp only
      rw [if_neg hne]
      unfold deliver
      rw [if_neg (by rintro rfl; rw [h1] at hq0; cases hq0), hq0]
      rfl
    refine ⟨hj, by rw [hw]; dsimp only; rw [if_pos hqj], computes_join h5 (.ax (.inr (by rw [ht]))) (.ax (hwire _ .sealed))
      (.ax (hwire _ .transcript))⟩
  obtain ⟨h, hh1, hh2⟩ := hstep
  obtain ⟨v1, hv1⟩ := finv_next hv hmid'.1
  obtain ⟨h', h1', h2'⟩ := computes_run (K := K) hv1 hmid'.2 hmid hh1 hh2 hend
  obtain ⟨v2, hv2⟩ := finv_run hv1 hmid'.2
  rw [hrun] at hg
  have e : g.secrets = h'.secrets := by rw [(hv2.1.member k g hg).secrets, (hv2.1.member q h' h1').secrets]
  refine h2'.keys τ ?_
  unfold epochKeys at hτ ⊢
  rw [← e]
  exact hτ

/-- The hypotheses are met: member 1 joins, then members 2 and 3, and the owner removes 2. -/
example : (St.start 0 false).Ok ([] ++ .add 0 1 exBefore.exR 0 false :: [.add 0 2 exBefore.exR 0 false, .add 0 3 exBefore.exR 0 false,
      .remove 0 2 exBefore.exR] ++ [.send 0]) ∧ ((St.start 0 false).run []).w 1 = none ∧
    ((((St.start 0 false).run []).next (.add 0 1 exBefore.exR 0 false)).w 1).isSome ∧
    ∀ c ∈ [Choice.add 0 2 exBefore.exR 0 false, .add 0 3 exBefore.exR 0 false, .remove 0 2 exBefore.exR], c.spares 1 := by
  refine ⟨by decide +kernel, rfl, by decide +kernel, ?_⟩
  simp [Choice.spares]

/-! A committer replaces everything. -/

theorem gen_own {M : Type} (P : Prims M) {rnd : Nat → Nat → Nat} {s : M} : ∀ {dp cp : List Nat} {k : Nat} {cur : M} {t : TreeKem.Tree M} {own : Own M}
    {us : List (UpdNode M)} {root : M} {own' : Own M}, (∃ a, cur = P.next^[a] s) → (∀ y σ, own y = some σ → ∃ a, σ = P.next^[a] s) →
    (genLoop P rnd k dp cp cur t own).2 = .ok (us, root, own') → ∀ y σ, own' y = some σ → ∃ a, σ = P.next^[a] s
  | [], _, _, _, _, _, _, _, _, _, ho, h => by cases h; exact ho
  | _ :: _, [], _, _, _, _, _, _, _, _, _, h => by cases h
  | x :: dp, c :: cp, k, cur, t, own, us, root, own', hc, ho, h => by
    unfold genLoop at h
    dsimp only at h
    have hn : ∃ a, P.next cur = P.next^[a] s := by
      obtain ⟨a, rfl⟩ := hc
      exact ⟨a + 1, by rw [Function.iterate_succ_apply']⟩
    split at h
    · cases h
    · rename_i t1 _
      split at h
      · cases h
      · rename_i rs _
        split at h
        · cases h
        · cases h
        · rename_i cts _
          dsimp only at h
          cases hr : (genLoop P rnd (k + 1) dp cp (P.next cur) t1 (own.set x (P.next cur))).2 with
          | err => rw [hr] at h; cases h
          | panic => rw [hr] at h; cases h
          | ok r =>
            obtain ⟨us1, root1, own1⟩ := r
            rw [hr] at h
            cases h
            refine gen_own P hn (fun y σ hy => ?_) hr
            unfold Own.set at hy
            split at hy
            · cases hy; exact hn
            · exact ho y σ hy

theorem path_own {M : Type} (P : Prims M) {t : TreeKem.Tree M} {i : Nat} {s : M} {rnd : Nat → Nat → Nat} {u : UpdatePath M} {root : M}
    {own : Own M} (h : (generateUpdatePath P t i s rnd).2 = .ok (u, root, own)) : ∀ y σ, own y = some σ → ∃ a, σ = P.next^[a] s := by
  unfold generateUpdatePath at h
  split at h
  · rename_i dp cp x _ _ _
    split at h
    · cases h
    · rename_i l hl
      dsimp only at h
      cases hr : (genLoop P rnd 0 dp cp s (t.set x (.leaf { l with pk := P.pub s })) (Own.set (fun _ => none) x s)).2 with
      | err => rw [hr] at h; cases h
      | panic => rw [hr] at h; cases h
      | ok r =>
        obtain ⟨us1, root1, own1⟩ := r
        rw [hr] at h
        cases h
        refine gen_own P ⟨0, rfl⟩ (fun y σ hy => ?_) hr
        unfold Own.set at hy
        split at hy
        · cases hy; exact ⟨0, rfl⟩
        · cases hy
    · cases h
  · cases h

/-- C77 for whoever commits: after its commit a member holds no path secret but those derived from the new leaf secret. Missing: this
says nothing on members that do not commit. -/
theorem C77_committer_partial {M : Type} (P : Prims M) (g : GroupState M) (s : M) (rnd : Nat → Nat → Nat) :
    (∀ c, (commitUpdate P g s rnd).2 = .ok c → ∀ y σ, (commitUpdate P g s rnd).1.own y = some σ → ∃ a, σ = P.next^[a] s) ∧
    (∀ leaf rw x, (addMember P g leaf s rnd rw).2 = .ok x → ∀ y σ, (addMember P g leaf s rnd rw).1.own y = some σ →
      ∃ a, σ = P.next^[a] s) ∧
    ∀ j c, (removeMember P g j s rnd).2 = .ok c → ∀ y σ, (removeMember P g j s rnd).1.own y = some σ → ∃ a, σ = P.next^[a] s := by
  refine ⟨fun c h => ?_, fun leaf rw x h => ?_, fun j c h => ?_⟩
  · unfold commitUpdate at h ⊢
    cases hu : generateUpdatePath P g.tree g.ownLeaf s rnd with
    | mk t r =>
      rw [hu] at h
      cases r with
      | err => cases h
      | panic => cases h
      | ok r => exact path_own P (congrArg Prod.snd hu)
  · unfold addMember at h ⊢
    dsimp only at h ⊢
    cases ht : addLeafAt g.tree (freeSlot g.tree) leaf with
    | none => rw [ht] at h; cases h
    | some t0 =>
      rw [ht] at h
      dsimp only at h ⊢
      cases hu : generateUpdatePath P t0 g.ownLeaf s rnd with
      | mk t r =>
        rw [hu] at h
        cases r with
        | err => cases h
        | panic => cases h
        | ok r =>
          have := path_own P (congrArg Prod.snd hu)
          obtain ⟨path, root, own⟩ := r
          dsimp only at h ⊢
          split
          · split
            · exact this
            · split
              · exact this
              · split
                · exact this
                · exact this
          · exact this
  · unfold removeMember at h ⊢
    cases ht : removeLeaf g.tree j with
    | none => rw [ht] at h; cases h
    | some t0 =>
      rw [ht] at h
      dsimp only at h ⊢
      cases hu : generateUpdatePath P t0 g.ownLeaf s rnd with
      | mk t r =>
        rw [hu] at h
        cases r with
        | err => cases h
        | panic => cases h
        | ok r => exact path_own P (congrArg Prod.snd hu)

end Verif.TreeKem

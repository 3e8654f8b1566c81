import Verif.TreeKem.Attack
import Verif.TreeKem.Props
/-
C25 and C26: removed members learn nothing later, joining members nothing earlier.

`St.run` keeps, next to the members' states, everything an attacker has: all commits, Welcomes and ciphertexts ever sent, and the
whole state of every leaf it sits at, after every operation. `Derives` closes this under every symbolic computation.
-/
namespace Verif.TreeKem

open Verif.TreeMath Verif.Sym

/-- In a clean epoch nobody derives the group's secrets, neither then nor later. -/
theorem secrecy {cid : Nat} {b : Bool} {pre post : List Choice} (hok : (St.start cid b).Ok (pre ++ post))
    (hclean : ((St.start cid b).run pre).Clean) {i : Nat} {g : GroupState Term} (hg : ((St.start cid b).run pre).w i = some g)
    {τ : Term} (hτ : τ ∈ [g.secrets.epochSecret, g.secrets.encryption, g.secrets.confirmation, g.secrets.membership]) :
    ¬ Derives ((St.start cid b).run (pre ++ post)).knows τ := by
  intro hd
  have hG := good_moments hok
  have hp := knows_pub hok hd
  obtain ⟨h1, x, y, z, h2⟩ := clean_secret hok hclean hg
  rw [h2] at h1 hτ
  have hsub : ∀ l : String, l ≠ "path" ∧ l ≠ "epoch" ∧ l ≠ "init" →
      ¬ PubM (moments cid b (pre ++ post)) (labelled l (derive symPrims x y z).epochSecret) :=
    fun l hl hp => h1 (pub_other hG hl hp)
  simp only [List.mem_cons, List.not_mem_nil, or_false] at hτ
  rcases hτ with rfl | rfl | rfl | rfl
  · exact h1 hp
  · exact hsub _ (by decide) hp
  · exact hsub _ (by decide) hp
  · exact hsub _ (by decide) hp

/-- A message sent in a clean epoch stays secret. -/
theorem message_secrecy {cid : Nat} {b : Bool} {pre post : List Choice} {i : Nat}
    (hok : (St.start cid b).Ok (pre ++ .send i :: post)) (hclean : ((St.start cid b).run pre).Clean) :
    ¬ Derives ((St.start cid b).run (pre ++ .send i :: post)).knows (.fresh (3 * (pre.length + 1) + 2)) := by
  intro hd
  have hG := good_moments hok
  have hp := knows_pub hok hd
  have hm : moments cid b (pre ++ .send i :: post) (momentOf ((St.start cid b).run pre) (.send i)) := .inr ⟨_, _, _, rfl, rfl⟩
  have ht : ((St.start cid b).run pre).t = pre.length + 1 := by
    rw [run_t, show (St.start cid b).t = 1 from rfl]; omega
  rw [← ht] at hp
  obtain ⟨k, hk1, hk2⟩ := (pub_message hG hm).1 hp
  have hop := (ok_append hok).2.1
  obtain ⟨g, hg⟩ := Option.isSome_iff_exists.1 hop
  have hw : (((St.start cid b).run pre).next (.send i)).w = fun j => if j = i then
      some (encryptMessage symPrims g (.fresh (3 * ((St.start cid b).run pre).t + 2))).1 else ((St.start cid b).run pre).w j := by
    show (step symPrims _ (opOf _ (.send i))).1 = _
    unfold step opOf; dsimp only; rw [hg]
  have h1 : ((St.start cid b).run pre).bad k = true := hk1
  have h2 : (((St.start cid b).run pre).w k).isSome := by
    rw [hw] at hk2
    dsimp only at hk2
    split at hk2
    · rename_i e; rw [e, hg]; rfl
    · exact hk2
  rw [hclean k h2] at h1
  cases h1

/-! ### Clean epochs -/

/-- The attacker joins. -/
def Choice.badJoin : Choice → Prop
  | .add _ _ _ _ true => True
  | _ => False

theorem mem_one {M : Type} {w : World M} {i k : Nat} {g' : GroupState M} (hi : (w i).isSome)
    (h : (if k = i then some g' else w k).isSome) : (w k).isSome := by
  split at h
  · rename_i e; rw [e]; exact hi
  · exact h

theorem mem_deliver {M : Type} {P : Prims M} {w : World M} {i k : Nat} {g' : GroupState M} {c : Commit M} (hi : (w i).isSome)
    (h : (deliver P w i g' c k).isSome) : (w k).isSome := by
  unfold deliver at h
  split at h
  · rename_i e; rw [e]; exact hi
  · rw [Option.isSome_map] at h; exact h

/-- Nobody turns bad except by joining. -/
theorem bad_before {S : St} {c : Choice} (hc : ¬ c.badJoin) {k : Nat} (hk : (S.next c).badMember k) : S.badMember k := by
  obtain ⟨h1, h2⟩ := hk
  have h1 : marks S.bad c (step symPrims S.w (opOf S.t c)).2 k = true := h1
  have h2 : ((step symPrims S.w (opOf S.t c)).1 k).isSome := h2
  cases c with
  | update i rnd =>
    refine ⟨h1, ?_⟩
    unfold step opOf at h2
    dsimp only at h2
    split at h2
    · exact h2
    · rename_i g hg
      have hi : (S.w i).isSome := by rw [hg]; rfl
      split at h2
      · exact mem_deliver hi h2
      · exact mem_one hi h2
  | send i =>
    refine ⟨h1, ?_⟩
    unfold step opOf at h2
    dsimp only at h2
    split at h2
    · exact h2
    · rename_i g hg
      have hi : (S.w i).isSome := by rw [hg]; rfl
      exact mem_one hi h2
  | remove i j rnd =>
    unfold step opOf at h1 h2
    dsimp only at h1 h2
    cases hg : S.w i with
    | none =>
      rw [hg] at h1 h2
      exact ⟨h1, h2⟩
    | some g =>
      rw [hg] at h1 h2
      dsimp only at h1 h2
      have hi : (S.w i).isSome := by rw [hg]; rfl
      split at h1
      · rename_i g' c he
        rw [he] at h2
        have h1 : (if k = j then false else S.bad k) = true := h1
        have h2 : (if k = j then none else deliver symPrims S.w i g' c k).isSome := h2
        split at h1
        · cases h1
        · rename_i hkj
          rw [if_neg hkj] at h2
          exact ⟨h1, mem_deliver hi h2⟩
      · rename_i g' r hr he
        rw [he] at h2
        refine ⟨h1, ?_⟩
        split at h2
        · rename_i he2
          injection he2 with he3 he4
          exact absurd he4 (hr _)
        · rename_i he2
          exact mem_one hi h2
  | add i cid rnd rw b =>
    have hb : b = false := by
      cases b with
      | true => exact absurd trivial hc
      | false => rfl
    subst hb
    unfold step opOf at h1 h2
    dsimp only at h1 h2
    cases hg : S.w i with
    | none =>
      rw [hg] at h1 h2
      exact ⟨h1, h2⟩
    | some g =>
      rw [hg] at h1 h2
      dsimp only at h1 h2
      have hi : (S.w i).isSome := by rw [hg]; rfl
      split at h1
      · rename_i g' c wel he
        rw [he] at h2
        have h1 : (if k = wel.joiner then false else S.bad k) = true := h1
        split at h1
        · cases h1
        · rename_i hkj
          dsimp only at h2
          rw [if_neg hkj] at h2
          exact ⟨h1, mem_deliver hi h2⟩
      · rename_i g' r hr he
        rw [he] at h2
        refine ⟨h1, ?_⟩
        split at h2
        · rename_i he2
          injection he2 with he3 he4
          exact absurd he4 (hr _ _)
        · exact mem_one hi h2

theorem clean_run {S : St} {cs : List Choice} (h : S.Clean) (hcs : ∀ c ∈ cs, ¬ c.badJoin) : (S.run cs).Clean := by
  induction cs generalizing S with
  | nil => exact h
  | cons c cs ih =>
    refine ih (S := S.next c) (fun k hk => ?_) fun x hx => hcs x (List.mem_cons_of_mem _ hx)
    by_contra hb
    have := bad_before (hcs c (by simp)) ⟨Bool.eq_true_of_not_eq_false hb, hk⟩
    have h1 := this.1
    rw [h k this.2] at h1
    exact absurd h1 (by decide)

theorem clean_remove {S : St} {v : Shared Term} (hv : Inv symPrims S.w v) {i j : Nat} {rnd : Nat → Nat → Nat}
    (hop : Valid symPrims S.w (opOf S.t (.remove i j rnd))) (h : ∀ k, k ≠ j → (S.w k).isSome → S.bad k = false) :
    (S.next (.remove i j rnd)).Clean := by
  intro k hk
  by_contra hb
  have hm := bad_before (c := .remove i j rnd) id ⟨Bool.eq_true_of_not_eq_false hb, hk⟩
  have hkj : k = j := by
    by_contra hne
    have h1 := hm.1
    rw [h k hne hm.2] at h1
    exact absurd h1 (by decide)
  obtain ⟨g, hg⟩ := Option.isSome_iff_exists.1 hop.1
  obtain ⟨cs⟩ := commit_step hv hop trivial
  have hk' : ((step symPrims S.w (opOf S.t (.remove i j rnd))).1 k).isSome := hk
  have hb' : ¬ marks S.bad (.remove i j rnd) (step symPrims S.w (opOf S.t (.remove i j rnd))).2 k = false := hb
  have hfine := (step_ok symPrims symPrims_lawful hv hop).1
  obtain ⟨g2, c, hg2, hc, _⟩ := hfine
  unfold step opOf at hk'
  dsimp only at hk'
  rw [hg] at hk' hg2
  cases hg2
  dsimp only at hk'
  split at hk'
  · dsimp only at hk'
    rw [if_pos hkj] at hk'
    cases hk'
  · rename_i hne he
    rw [he] at hc
    exact hne _ hc

/-! ### The theorems -/

/-- The secrets an epoch is used with; not the init secret, which is for the next epoch. -/
def epochKeys (g : GroupState Term) : List Term :=
  [g.secrets.epochSecret, g.secrets.encryption, g.secrets.confirmation, g.secrets.membership]

theorem removed_clean {cid : Nat} {b : Bool} {pre mid : List Choice} {i j : Nat} {rnd : Nat → Nat → Nat}
    (hok : (St.start cid b).Ok (pre ++ .remove i j rnd :: mid))
    (hothers : ∀ k, k ≠ j → (((St.start cid b).run pre).w k).isSome → ((St.start cid b).run pre).bad k = false)
    (hmid : ∀ c ∈ mid, ¬ c.badJoin) : ((St.start cid b).run (pre ++ .remove i j rnd :: mid)).Clean := by
  obtain ⟨h1, h2, _⟩ := ok_append hok
  obtain ⟨v, hv⟩ := finv_run (S := St.start cid b) ⟨start_inv cid b, _, _, _, rfl⟩ h1
  rw [run_append]
  exact clean_run (S := ((St.start cid b).run pre).next (.remove i j rnd)) (clean_remove hv.1 h2 hothers) hmid

/-- C25: once the attacker's only leaf `j` is removed, it never derives the keys of any later epoch without it, whatever happened
before (`pre`, in which it may have been in and out of the group), and whatever is sent later (`post`, even if it joins again). -/
theorem C25_removed_member {cid : Nat} {b : Bool} {pre mid post : List Choice} {i j : Nat} {rnd : Nat → Nat → Nat}
    (hok : (St.start cid b).Ok ((pre ++ .remove i j rnd :: mid) ++ post))
    (hothers : ∀ k, k ≠ j → (((St.start cid b).run pre).w k).isSome → ((St.start cid b).run pre).bad k = false)
    (hmid : ∀ c ∈ mid, ¬ c.badJoin) {k : Nat} {g : GroupState Term}
    (hg : ((St.start cid b).run (pre ++ .remove i j rnd :: mid)).w k = some g) {τ : Term} (hτ : τ ∈ epochKeys g) :
    ¬ Derives ((St.start cid b).run ((pre ++ .remove i j rnd :: mid) ++ post)).knows τ :=
  secrecy hok (removed_clean (ok_append hok).1 hothers hmid) hg hτ

/-- C25, for messages: what the group sends after the removal stays secret. -/
theorem C25_later_messages {cid : Nat} {b : Bool} {pre mid post : List Choice} {i j k : Nat} {rnd : Nat → Nat → Nat}
    (hok : (St.start cid b).Ok ((pre ++ .remove i j rnd :: mid) ++ .send k :: post))
    (hothers : ∀ k, k ≠ j → (((St.start cid b).run pre).w k).isSome → ((St.start cid b).run pre).bad k = false)
    (hmid : ∀ c ∈ mid, ¬ c.badJoin) :
    ¬ Derives ((St.start cid b).run ((pre ++ .remove i j rnd :: mid) ++ .send k :: post)).knows
      (.fresh (3 * ((pre ++ .remove i j rnd :: mid).length + 1) + 2)) :=
  message_secrecy hok (removed_clean (ok_append hok).1 hothers hmid)

theorem start_clean (cid : Nat) : (St.start cid false).Clean := by
  intro k _
  show (k == 0 && false) = false
  exact Bool.and_false _

/-- C26: as long as the attacker has not joined (`pre`), it never derives the keys of the epoch, however it joins later (`post`),
at however many leaves. -/
theorem C26_joining_member {cid : Nat} {pre post : List Choice} (hok : (St.start cid false).Ok (pre ++ post))
    (hpre : ∀ c ∈ pre, ¬ c.badJoin) {k : Nat} {g : GroupState Term} (hg : ((St.start cid false).run pre).w k = some g)
    {τ : Term} (hτ : τ ∈ epochKeys g) : ¬ Derives ((St.start cid false).run (pre ++ post)).knows τ :=
  secrecy hok (clean_run (start_clean cid) hpre) hg hτ

/-- C26, for messages: what was sent before the attacker joined stays secret. -/
theorem C26_earlier_messages {cid : Nat} {pre post : List Choice} {i : Nat}
    (hok : (St.start cid false).Ok (pre ++ .send i :: post)) (hpre : ∀ c ∈ pre, ¬ c.badJoin) :
    ¬ Derives ((St.start cid false).run (pre ++ .send i :: post)).knows (.fresh (3 * (pre.length + 1) + 2)) :=
  message_secrecy hok (clean_run (start_clean cid) hpre)

/-- In between it has the keys: the secrets of an epoch are derivable as soon as one member is the attacker's. -/
theorem C25_members_know {S : St} {c : Choice} {v : Shared Term} (hv : Inv symPrims (S.next c).w v) {k : Nat}
    (hk : (S.next c).badMember k) {i : Nat} {g : GroupState Term} (hg : (S.next c).w i = some g) {τ : Term} (hτ : τ ∈ epochKeys g) :
    Derives (S.next c).knows τ := by
  obtain ⟨h, hh⟩ := Option.isSome_iff_exists.1 hk.2
  have e : g.secrets = h.secrets := by rw [(hv.member i g hg).secrets, (hv.member k h hh).secrets]
  refine .ax (.inr (.inr ⟨k, h, hk.1, hh, ?_⟩))
  unfold epochKeys at hτ
  rw [e] at hτ
  simp only [List.mem_cons, List.not_mem_nil, or_false] at hτ
  rcases hτ with rfl | rfl | rfl | rfl
  · exact .epochSecret
  · exact .encryption
  · exact .confirmation
  · exact .membership

section

instance decOk : ∀ (cs : List Choice) (S : St), Decidable (S.Ok cs)
  | [], _ => isTrue trivial
  | c :: cs, S =>
    haveI := decOk cs (S.next c)
    by unfold St.Ok; infer_instance

/-- An honest founder; an honest joiner; the attacker joins at leaf 2, commits and is removed by member 1; member 0 sends, member 3
joins and updates; the attacker joins again and member 0 leaves. -/
def exBefore : List Choice := [.add 0 1 exR 0 false, .add 0 2 exR 0 true, .send 0, .update 2 exR]
where exR := fun _ _ => 0

def exBetween : List Choice := [.send 0, .add 1 3 exBefore.exR 0 false, .update 2 exBefore.exR]

def exAfter : List Choice := [.add 2 4 exBefore.exR 0 true, .remove 2 0 exBefore.exR, .send 3]

theorem ex_ok : (St.start 0 false).Ok ((exBefore ++ .remove 1 2 exBefore.exR :: exBetween) ++ exAfter) := by decide +kernel

/-- The hypotheses of C25 are met. -/
example : (∀ k, k ≠ 2 → (((St.start 0 false).run exBefore).w k).isSome → ((St.start 0 false).run exBefore).bad k = false) ∧
    (∀ c ∈ exBetween, ¬ c.badJoin) ∧
    (((St.start 0 false).run exBefore).bad 2 = true ∧ (((St.start 0 false).run exBefore).w 2).isSome) ∧
    (((St.start 0 false).run (exBefore ++ .remove 1 2 exBefore.exR :: exBetween)).w 2).isSome := by
  refine ⟨fun k hk hs => ?_, ?_, by decide +kernel, by decide +kernel⟩
  · obtain ⟨v, hv⟩ := finv_run (S := St.start 0 false) ⟨start_inv 0 false, _, _, _, rfl⟩ (ok_append (ok_append ex_ok).1).1
    have h0 : (((St.start 0 false).run exBefore).w 0).map (fun g => numLeaves g.tree) = some 3 := by decide +kernel
    obtain ⟨g, hg, hn⟩ := Option.map_eq_some_iff.1 h0
    obtain ⟨h, hh⟩ := Option.isSome_iff_exists.1 hs
    have hlt := (hv.1.member k h hh).lt
    rw [(hv.1.member 0 g hg).tree, hv.1.shape.toSize.leaves] at hn
    have hfin : ∀ k < 3, k ≠ 2 → ((St.start 0 false).run exBefore).bad k = false := by decide +kernel
    exact hfin k (by omega) hk
  · intro c hc
    simp only [exBetween, List.mem_cons, List.not_mem_nil, or_false] at hc
    rcases hc with rfl | rfl | rfl <;> exact id

end

end Verif.TreeKem

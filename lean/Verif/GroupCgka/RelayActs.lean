import Verif.GroupCgka.RelayTrack
/-
Accepting, leaving, relaying and sending keep the invariant of the relayed group.
-/
namespace Verif.GroupCgka

open Verif.TreeKem Verif.TreeMath

variable {M : Type} (P : Prims M)

/-- No session ends and nothing panics. -/
def Calm : Out M → Prop
  | .ended => False
  | .panic => False
  | _ => True

theorem inv_start (hP : Lawful P) (o : Nat) (s : M) : ∃ h, SysInv P h o (Sys.start P o s) := by
  refine ⟨⟨0, fun _ => founding P (keyPackage P o s) s, fun _ => ⟨[], ⟨0, P.zero, []⟩⟩⟩, ⟨?_, ?_, ?_, ?_⟩, ?_, ?_, ?_, rfl, ?_⟩
  · exact fun d _ => .create _ s rfl
  · exact fun d _ => rfl
  · intro d hd j g hj
    dsimp only at hd hj
    unfold founding at hj
    split at hj
    · cases hj
      show 0 = d
      omega
    · cases hj
  · intro d hd
    exact absurd hd (Nat.not_lt_zero d)
  · exact ⟨_, _, s, rfl, ⟨_, rfl⟩, rfl, by simp [cidAt, create, bootstrap, fromLeaves, nd, leafToNode, keyPackage]⟩
  · intro e cm he; cases he
  · show 0 + 1 < 2 ^ 64; decide
  · exact fun c => .absent rfl rfl rfl rfl rfl

theorem put_same {A : Type} (f : Nat → A) (c : Nat) (a : A) : put f c a c = a := if_pos rfl

theorem put_other {A : Type} (f : Nat → A) {c x : Nat} (a : A) (h : x ≠ c) : put f c a x = f x := if_neg h

variable {P}

theorem fq_of {y : Sys M} {c : Nat} {D : List (Down M)} {r : Bool} {u : List (Up M)} (h1 : (y.down c).filter isCtl = D) (h2 : y.roster c = r)
    (h3 : y.up = u) : fq y c = D ++ if r then cut c u else [] := by
  unfold fq
  rw [h1, h2, h3]

theorem fq_eq {y y' : Sys M} {c : Nat} (h1 : (y'.down c).filter isCtl = (y.down c).filter isCtl) (h2 : y'.roster c = y.roster c)
    (h3 : cut c y'.up = cut c y.up) : fq y' c = fq y c := by
  unfold fq
  rw [h1, h2, h3]

theorem inv_same {h : Hist M} {o : Nat} {y y' : Sys M} (hi : SysInv P h o y)
    (h1 : ∃ g g0 s, y'.owner = ⟨some g, s, true⟩ ∧ Like g g0 ∧ h.W h.E 0 = some g0 ∧ cidAt g0.tree 0 = some o)
    (h2 : ∀ e cm, Up.commit e cm ∈ y'.up → Up.commit e cm ∈ y.up) (h3 : y'.seen o = y.seen o) (h4 : ∀ c, Status P h y' c) :
    SysInv P h o y' := ⟨hi.hist, h1, fun e cm he => hi.up e cm (h2 e cm he), hi.bound, h3.trans hi.notOwner, h4⟩

theorem act_accept {h : Hist M} {o : Nat} {y : Sys M} (hi : SysInv P h o y) {c : Nat} (hc : c ≠ o) (hs : y.seen c = false) :
    SysInv P h o (act P y (.accept c)).1 := by
  refine inv_same hi hi.owner (fun _ _ he => he) (put_other _ _ (Ne.symm hc)) fun x => ?_
  by_cases e : x = c
  · subst e
    cases hi.status x with
    | absent a1 a2 a3 a4 a5 =>
      refine .invited [] (cut x y.up) a1 a2 (put_same _ _ _) ?_ (by simp) (cut_plain hi.up)
      refine (fq_of (y := (act P y (.accept x)).1) (D := [.accepted]) (r := true) (u := y.up) ?_ (put_same _ _ _) rfl).trans rfl
      unfold act
      dsimp only
      rw [put_same, a5]
      rfl
    | invited a b a1 a2 a3 => rw [hs] at a3; cases a3
    | waiting s a1 a2 a3 => rw [hs] at a3; cases a3
    | welcomed s a b wel q f hj a1 a2 a3 => rw [hs] at a3; cases a3
    | joined s g g0 q f a1 a2 a3 => rw [hs] at a3; cases a3
  · refine status_same P (hi.status x) rfl rfl (put_other _ _ e) (fun h1 h2 => ?_) ?_ ?_
    · exact ⟨(put_other _ _ e).trans h1, (put_other _ _ e).trans h2⟩
    · refine fq_eq ?_ (put_other _ _ e) rfl
      unfold act
      dsimp only
      rw [put_other _ _ e]
    · rintro ⟨h1, h2⟩
      exact ⟨(put_other _ _ e).symm.trans h1, h2⟩

theorem act_leave {h : Hist M} {o : Nat} {y : Sys M} (hi : SysInv P h o y) (c : Nat) : SysInv P h o (act P y (.leave c)).1 := by
  refine inv_same hi hi.owner (fun _ _ he => he) rfl fun x => ?_
  by_cases e : x = c
  · subst e
    exact status_off P hi.up (hi.status x) rfl rfl rfl (put_same _ _ _) rfl
  · refine status_same P (hi.status x) rfl rfl rfl (fun h1 h2 => ⟨(put_other _ _ e).trans h1, h2⟩) ?_ ?_
    · exact fq_eq rfl (put_other _ _ e) rfl
    · rintro ⟨h1, h2⟩
      exact ⟨(put_other _ _ e).symm.trans h1, h2⟩

theorem cast_ctl (y : Sys M) (c : Option Nat) (a : Option (AppMsg M)) (x : Nat) :
    (y.cast c (.sig (.message a)) x).filter isCtl = (y.down x).filter isCtl := by
  unfold Sys.cast
  split
  · rw [List.filter_append]
    simp [isCtl]
  · rfl

theorem act_relay {h : Hist M} {o : Nat} {y : Sys M} (hi : SysInv P h o y) : SysInv P h o (act P y .relay).1 ∧ Calm (act P y .relay).2 := by
  unfold act
  dsimp only
  cases hu : y.up with
  | nil => exact ⟨hi, trivial⟩
  | cons u rest =>
    cases u with
    | kick c =>
      refine ⟨inv_same hi hi.owner (fun _ _ he => by rw [hu]; simp [show _ ∈ rest from he]) rfl fun x => ?_, trivial⟩
      by_cases e : x = c
      · subst e
        exact status_off P hi.up (hi.status x) rfl rfl rfl (put_same _ _ _) rfl
      · refine status_same P (hi.status x) rfl rfl rfl (fun h1 h2 => ⟨(put_other _ _ e).trans h1, h2⟩) ?_ ?_
        · refine fq_eq rfl (put_other _ _ e) ?_
          rw [hu, cut, if_neg (Ne.symm e)]
        · rintro ⟨h1, h2⟩
          refine ⟨(put_other _ _ e).symm.trans h1, ?_⟩
          rw [hu]
          simp only [List.mem_cons, Up.kick.injEq, not_or]
          exact ⟨e, h2⟩
    | commit ep cm =>
      refine ⟨inv_same hi hi.owner (fun _ _ he => by rw [hu]; simp [show _ ∈ rest from he]) rfl fun x => ?_, trivial⟩
      refine status_same P (hi.status x) rfl rfl rfl (fun h1 h2 => ⟨h1, ?_⟩) ?_ ?_
      · dsimp only [Sys.cast]
        rw [if_neg (by rw [h1]; simp), h2]
      · unfold fq
        dsimp only [Sys.cast]
        rw [hu]
        by_cases hr : y.roster x = true
        · rw [if_pos ⟨hr, by simp⟩, if_pos hr, if_pos hr, List.filter_append, List.append_assoc]
          rfl
        · rw [if_neg (fun hx => hr hx.1), if_neg hr, if_neg hr]
      · rintro ⟨h1, h2⟩
        refine ⟨h1, ?_⟩
        rw [hu]
        simp only [List.mem_cons, reduceCtorEq, false_or]
        exact h2
    | message a =>
      refine ⟨inv_same hi hi.owner (fun _ _ he => by rw [hu]; simp [show _ ∈ rest from he]) rfl fun x => ?_, trivial⟩
      refine status_same P (hi.status x) rfl rfl rfl (fun h1 h2 => ⟨h1, ?_⟩) ?_ ?_
      · dsimp only [Sys.cast]
        rw [if_neg (by rw [h1]; simp), h2]
      · exact fq_eq (cast_ctl y _ _ x) rfl (by rw [hu]; rfl)
      · rintro ⟨h1, h2⟩
        refine ⟨h1, ?_⟩
        rw [hu]
        simp only [List.mem_cons, reduceCtorEq, false_or]
        exact h2

theorem act_ownerSend {h : Hist M} {o : Nat} {y : Sys M} (hi : SysInv P h o y) (m : M) :
    SysInv P h o (act P y (.ownerSend m)).1 ∧ Calm (act P y (.ownerSend m)).2 := by
  obtain ⟨g, g0, s, h1, ⟨n, h2⟩, h3, h4⟩ := hi.owner
  unfold act encrypt
  dsimp only
  rw [h1]
  dsimp only
  refine ⟨inv_same hi ⟨_, g0, s, rfl, ?_, h3, h4⟩ (fun _ _ he => ?_) rfl fun x => ?_, trivial⟩
  · subst h2
    exact ⟨_, rfl⟩
  · simpa using he
  · refine status_same P (hi.status x) rfl rfl rfl (fun h1 h2 => ⟨h1, h2⟩) ?_ ?_
    · unfold fq
      dsimp only
      by_cases hk : Up.kick x ∈ y.up
      · rw [(cut_append x y.up _).1 hk]
      · rw [(cut_append x y.up _).2 hk]
        simp [cut]
    · rintro ⟨h1, h2⟩
      refine ⟨h1, fun hk => h2 ?_⟩
      simp [hk]

theorem act_send {h : Hist M} {o : Nat} {y : Sys M} (hi : SysInv P h o y) (c : Nat) (m : M) :
    SysInv P h o (act P y (.send c m)).1 ∧ Calm (act P y (.send c m)).2 := by
  unfold act encrypt
  dsimp only
  cases hc : y.clients c with
  | none => exact ⟨hi, trivial⟩
  | some cl =>
    dsimp only
    cases hg : cl.group with
    | none => exact ⟨hi, trivial⟩
    | some g =>
      dsimp only
      refine ⟨inv_same hi hi.owner (fun _ _ he => he) rfl fun x => ?_, trivial⟩
      have hf : ∀ z : Sys M, z.down = y.cast (some c) (.sig (.message (some (encryptMessage P g m).2))) → z.roster = y.roster → z.up = y.up →
          fq z x = fq y x := by
        intro z e1 e2 e3
        unfold fq
        rw [e1, e2, e3, cast_ctl]
      by_cases e : x = c
      · subst e
        cases hi.status x with
        | absent a1 => rw [hc] at a1; cases a1
        | invited a b a1 => rw [hc] at a1; cases a1
        | waiting s a1 => rw [hc, Option.some.injEq] at a1; subst a1; cases hg
        | welcomed s a b wel q f hj a1 => rw [hc, Option.some.injEq] at a1; subst a1; cases hg
        | joined s g1 g0 q f a1 a2 a3 a4 a5 a6 a7 =>
          rw [hc, Option.some.injEq] at a1
          subst a1
          cases hg
          obtain ⟨n, rfl⟩ := a4
          refine .joined s _ g0 q f (put_same _ _ _) a2 a3 ⟨_, rfl⟩ a5 (Eq.mpr (congrArg (fun l => Track h q g0.epoch l f) (hf _ ?_ ?_ ?_)) a6) a7 <;> rfl
      · refine status_same P (hi.status x) (put_other _ _ e) rfl rfl (fun h1 h2 => ⟨h1, ?_⟩) (hf _ rfl rfl rfl) (fun hx => hx)
        dsimp only [Sys.cast]
        rw [if_neg (by rw [h1]; simp), h2]

end Verif.GroupCgka

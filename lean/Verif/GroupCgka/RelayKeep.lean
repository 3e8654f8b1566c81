import Verif.GroupCgka.RelayActs
import Verif.GroupCgka.Attacks
/-
Adding, kicking and a client's handling of a packet keep the invariant of the relayed group.
-/
namespace Verif.GroupCgka

open Verif.TreeKem Verif.TreeMath

variable {M : Type} {P : Prims M}

theorem head_cases {a b r : List (Down M)} {x d : Down M} (h : a ++ x :: b = d :: r) :
    (a = [] ∧ x = d ∧ b = r) ∨ ∃ a', a = d :: a' ∧ a' ++ x :: b = r := by
  cases a with
  | nil => simp only [List.nil_append, List.cons.injEq] at h; exact .inl ⟨rfl, h.1, h.2⟩
  | cons z a => simp only [List.cons_append, List.cons.injEq] at h; exact .inr ⟨a, by rw [h.1], h.2⟩

/-- Only `c` changes. -/
theorem client_inv {h : Hist M} {o : Nat} {y y' : Sys M} (hi : SysInv P h o y) {c : Nat} {rest : List (Down M)} {cl : Option (Cgka M)}
    (e1 : y'.owner = y.owner) (e2 : y'.clients = put y.clients c cl) (e3 : y'.roster = y.roster) (e4 : ∀ x, x ≠ c → y'.kps x = y.kps x)
    (e5 : y'.up = y.up) (e6 : y'.down = put y.down c rest) (e7 : y'.seen = y.seen) (hc : Status P h y' c) : SysInv P h o y' := by
  refine inv_same hi (by rw [e1]; exact hi.owner) (fun _ _ he => by rw [← e5]; exact he) (by rw [e7]) fun x => ?_
  by_cases e : x = c
  · rw [e]; exact hc
  · refine status_same P (hi.status x) ?_ (e4 x e) (by rw [e7]) (fun h1 h2 => ⟨by rw [e3]; exact h1, ?_⟩) (fq_eq ?_ (by rw [e3]) (by rw [e5])) ?_
    · rw [e2, put_other _ _ e]
    · rw [e6, put_other _ _ e]; exact h2
    · rw [e6, put_other _ _ e]
    · unfold Active
      rw [e3, e5]
      exact id

theorem act_client {h : Hist M} {o : Nat} {y : Sys M} (hi : SysInv P h o y) (c : Nat) (s : M) :
    SysInv P h o (act P y (.client c s)).1 ∧ Calm (act P y (.client c s)).2 := by
  unfold act
  dsimp only
  cases hd : y.down c with
  | nil => exact ⟨hi, trivial⟩
  | cons d rest =>
    -- what is left for `c`
    have hR : ∀ ow cl kp sn, fq (⟨ow, cl, y.roster, kp, y.up, put y.down c rest, sn⟩ : Sys M) c =
        rest.filter isCtl ++ if y.roster c then cut c y.up else [] := by
      intro ow cl kp sn
      refine fq_of ?_ rfl rfl
      show (put y.down c rest c).filter isCtl = _
      rw [put_same]
    generalize hRd : (rest.filter isCtl ++ if y.roster c then cut c y.up else []) = R at hR
    have hq : isCtl d = true → fq y c = d :: R := by
      intro hx
      rw [← hRd]
      unfold fq
      rw [hd, List.filter_cons_of_pos hx]
      rfl
    cases d with
    | accepted =>
      have hq := hq rfl
      dsimp only
      refine ⟨?_, trivial⟩
      cases hi.status c with
      | absent a1 a2 a3 a4 a5 => rw [hd] at a5; cases a5
      | invited a b a1 a2 a3 a4 a5 a6 =>
        rcases head_cases (a4.symm.trans hq) with ⟨r1, _, r2⟩ | ⟨a', r1, _⟩
        · rw [a1]
          refine client_inv hi (c := c) (rest := rest) (cl := some ⟨none, s, false⟩) rfl rfl rfl (fun x hx => put_other _ _ hx) rfl rfl rfl ?_
          refine .waiting s (put_same _ _ _) (put_same _ _ _) a3 ?_
          rw [hR, ← r2]
          exact a6
        · exact absurd (a5 .accepted (by rw [r1]; simp)) id
      | waiting s a1 a2 a3 a4 => exact absurd (a4 .accepted (by rw [hq]; simp)) id
      | welcomed s a b wel q f hj a1 a2 a3 a4 a5 =>
        rcases head_cases (a4.symm.trans hq) with ⟨_, r1, _⟩ | ⟨a', r1, _⟩
        · cases r1
        · exact absurd (a5 .accepted (by rw [r1]; simp)) id
      | joined s g g0 q f a1 a2 a3 a4 a5 a6 =>
        rw [hq] at a6
        cases a6
    | sig x =>
      dsimp only
      cases x with
      | message a =>
        have hq' : fq y c = R := by
          rw [← hRd]
          unfold fq
          rw [hd, List.filter_cons_of_neg (by simp [isCtl])]
        have e1 : (onSignal P (y.clients c) s (fun _ _ => 0) 0 (.message a)).1 = y.clients c := by
          unfold onSignal
          cases y.clients c <;> rfl
        rw [e1]
        refine ⟨client_inv hi (c := c) (rest := rest) (cl := y.clients c) rfl rfl rfl (fun x hx => rfl) rfl rfl rfl ?_, ?_⟩
        · refine status_same P (hi.status c) (put_same _ _ _) rfl rfl (fun _ h2 => ?_) ?_ id
          · rw [hd] at h2; cases h2
          · rw [hR, hq']
        · unfold onSignal
          cases y.clients c with
          | none => trivial
          | some cl =>
            dsimp only
            split <;> trivial
      | keyPackage j kp =>
        exfalso
        have hq := hq rfl
        cases hi.status c with
        | absent a1 a2 a3 a4 a5 => rw [hd] at a5; cases a5
        | invited a b a1 a2 a3 a4 a5 a6 =>
          rcases head_cases (a4.symm.trans hq) with ⟨_, r1, _⟩ | ⟨a', r1, _⟩
          · cases r1
          · exact a5 (.sig (.keyPackage j kp)) (by rw [r1]; simp)
        | waiting s a1 a2 a3 a4 => exact a4 (.sig (.keyPackage j kp)) (by rw [hq]; simp)
        | welcomed s a b wel q f hj a1 a2 a3 a4 a5 =>
          rcases head_cases (a4.symm.trans hq) with ⟨_, r1, _⟩ | ⟨a', r1, _⟩
          · cases r1
          · exact a5 (.sig (.keyPackage j kp)) (by rw [r1]; simp)
        | joined s g g0 q f a1 a2 a3 a4 a5 a6 =>
          rw [hq] at a6
          cases a6
      | welcome w =>
        have hq := hq rfl
        cases hi.status c with
        | absent a1 a2 a3 a4 a5 => rw [hd] at a5; cases a5
        | invited a b a1 a2 a3 a4 a5 a6 =>
          rcases head_cases (a4.symm.trans hq) with ⟨_, r1, _⟩ | ⟨a', r1, _⟩
          · cases r1
          · exact absurd (a5 (.sig (.welcome w)) (by rw [r1]; simp)) id
        | waiting s a1 a2 a3 a4 => exact absurd (a4 (.sig (.welcome w)) (by rw [hq]; simp)) id
        | welcomed s0 a b wel q f hj a1 a2 a3 a4 a5 a6 a7 a8 a9 =>
          rcases head_cases (a4.symm.trans hq) with ⟨_, r1, r2⟩ | ⟨a', r1, _⟩
          · cases r1
            have e : onSignal P (y.clients c) s (fun _ _ => 0) 0 (.welcome (some wel)) = (some ⟨some hj, s0, false⟩, .nothing) := by
              rw [a1]
              unfold onSignal join
              dsimp only
              rw [a6]
              rfl
            rw [e]
            refine ⟨client_inv hi (c := c) (rest := rest) (cl := some ⟨some hj, s0, false⟩) rfl rfl rfl (fun x hx => rfl) rfl rfl rfl ?_, trivial⟩
            refine .joined s0 hj hj q f (put_same _ _ _) a2 a3 ⟨hj.gen, rfl⟩ a7 ?_ a9
            rw [hR, ← r2]
            exact a8
          · exact absurd (a5 (.sig (.welcome w)) (by rw [r1]; simp)) id
        | joined s g g0 q f a1 a2 a3 a4 a5 a6 =>
          rw [hq] at a6
          cases a6
      | commit e cm =>
        have hq := hq rfl
        cases hi.status c with
        | absent a1 a2 a3 a4 a5 => rw [hd] at a5; cases a5
        | invited a b a1 a2 a3 a4 a5 a6 =>
          rcases head_cases (a4.symm.trans hq) with ⟨_, r1, _⟩ | ⟨a', r1, r2⟩
          · cases r1
          · rw [a1]
            refine ⟨client_inv hi (c := c) (rest := rest) (cl := none) rfl rfl rfl (fun x hx => rfl) rfl rfl rfl ?_, trivial⟩
            refine .invited a' b (put_same _ _ _) a2 a3 ?_ (fun x hx => a5 x (by rw [r1]; simp [hx])) a6
            rw [hR, r2]
        | waiting s0 a1 a2 a3 a4 =>
          rw [a1]
          refine ⟨client_inv hi (c := c) (rest := rest) (cl := some ⟨none, s0, false⟩) rfl rfl rfl (fun x hx => rfl) rfl rfl rfl ?_, trivial⟩
          refine .waiting s0 (put_same _ _ _) a2 a3 fun x hx => a4 x ?_
          rw [hR] at hx
          rw [hq]
          simp [hx]
        | welcomed s0 a b wel q f hj a1 a2 a3 a4 a5 a6 a7 a8 a9 =>
          rcases head_cases (a4.symm.trans hq) with ⟨_, r1, _⟩ | ⟨a', r1, r2⟩
          · cases r1
          · rw [a1]
            refine ⟨client_inv hi (c := c) (rest := rest) (cl := some ⟨none, s0, false⟩) rfl rfl rfl (fun x hx => rfl) rfl rfl rfl ?_, trivial⟩
            refine .welcomed s0 a' b wel q f hj (put_same _ _ _) a2 a3 ?_ (fun x hx => a5 x (by rw [r1]; simp [hx])) a6 a7 a8 a9
            rw [hR, r2]
        | joined s0 g g0 q f a1 a2 a3 a4 a5 a6 a7 =>
          rw [hq] at a6
          have hfE := a7.2.1
          have hle := a6.le
          have hb := hi.bound
          have hge : g.epoch = g0.epoch := by obtain ⟨n, rfl⟩ := a4; rfl
          cases a6 with
          | @next _ _ _ hs t =>
            have hte := t.le
            obtain ⟨k1, k2⟩ := hi.hist.next g0.epoch (by omega) q g0 a7.1 a5 hs
            have hk := hi.hist.epoch (g0.epoch + 1) (by omega) q _ k2
            have e : onSignal P (y.clients c) s (fun _ _ => 0) 0 (.commit (g0.epoch + 1) (some (h.C (g0.epoch + 1)))) =
                (some ⟨some (TreeKem.processCommit P g0 (h.C (g0.epoch + 1))).1, s0, false⟩, .nothing) := by
              rw [a1]
              unfold onSignal processCommit
              dsimp only
              rw [hge, if_neg (by omega), if_neg (by simp), process_like P a4 _ k1]
              dsimp only
              rw [k1]
              rfl
            rw [e]
            refine ⟨client_inv hi (c := c) (rest := rest) (cl := some ⟨some _, s0, false⟩) rfl rfl rfl (fun x hx => rfl) rfl rfl rfl ?_, trivial⟩
            refine .joined s0 _ _ q f (put_same _ _ _) a2 a3 ⟨_, rfl⟩ (by rw [hk]; exact k2) ?_ a7
            rw [hR, hk]
            exact t
          | old he t =>
            have e : onSignal P (y.clients c) s (fun _ _ => 0) 0 (.commit e cm) = (some ⟨some g, s0, false⟩, .nothing) := by
              rw [a1]
              unfold onSignal processCommit
              dsimp only
              rw [hge, if_neg (by omega), if_pos (by omega)]
              rfl
            rw [e]
            refine ⟨client_inv hi (c := c) (rest := rest) (cl := some ⟨some g, s0, false⟩) rfl rfl rfl (fun x hx => rfl) rfl rfl rfl ?_, trivial⟩
            refine .joined s0 _ _ q f (put_same _ _ _) a2 a3 a4 a5 ?_ a7
            rw [hR]
            exact t

/-- More from the owner. -/
theorem fq_up {y y' : Sys M} {c : Nat} {v : List (Up M)} (h1 : y'.down c = y.down c) (h2 : y'.roster c = y.roster c)
    (h3 : y'.up = y.up ++ v) : (Active y c → fq y' c = fq y c ++ cut c v) ∧ (¬ Active y c → fq y' c = fq y c) := by
  have e : fq y' c = (y.down c).filter isCtl ++ if y.roster c then cut c (y.up ++ v) else [] := fq_of (by rw [h1]) h2 h3
  rw [e]
  unfold fq
  refine ⟨fun ha => ?_, fun ha => ?_⟩
  · rw [if_pos ha.1, if_pos ha.1, (cut_append c y.up v).2 ha.2, List.append_assoc]
  · by_cases hr : y.roster c = true
    · rw [if_pos hr, if_pos hr, (cut_append c y.up v).1 (by by_contra hk; exact ha ⟨hr, hk⟩)]
    · rw [if_neg hr, if_neg hr]

theorem active_up {y y' : Sys M} {c : Nat} {v : List (Up M)} (h2 : y'.roster c = y.roster c) (h3 : y'.up = y.up ++ v) :
    Active y' c ↔ Active y c ∧ Up.kick c ∉ v := by
  unfold Active
  rw [h2, h3, List.mem_append, not_or, and_assoc]

theorem act_add (hP : Lawful P) {h : Hist M} {o : Nat} {y : Sys M} (hi : SysInv P h o y) {c : Nat} (s : M) (rnd : Nat → Nat → Nat) (rw' : Nat)
    (hroom : Room y) : ∃ h', SysInv P h' o (act P y (.add c s rnd rw')).1 ∧ Calm (act P y (.add c s rnd rw')).2 := by
  unfold act
  dsimp only
  cases hk : y.kps c with
  | none => exact ⟨h, hi, trivial⟩
  | some kp =>
    dsimp only
    cases hi.status c with
    | absent a1 a2 => rw [hk] at a2; cases a2
    | invited a b a1 a2 => rw [hk] at a2; cases a2
    | welcomed s a b wel q f hj a1 a2 => rw [hk] at a2; cases a2
    | joined s g g0 q f a1 a2 => rw [hk] at a2; cases a2
    | waiting s0 a1 a2 a3 a4 =>
      rw [hk, Option.some.injEq] at a2
      subst a2
      obtain ⟨g, g0, so, o1, o2, o3, o4⟩ := hi.owner
      have hgt : g.tree = g0.tree ∧ g.epoch = g0.epoch := by obtain ⟨n, rfl⟩ := o2; exact ⟨rfl, rfl⟩
      obtain ⟨hcap, hep⟩ := hroom g (by rw [o1])
      rw [hgt.1] at hcap
      rw [hgt.2] at hep
      have hE := hi.hist.epoch h.E le_rfl 0 g0 o3
      obtain ⟨w', g', cm, wel, hj, m1, m2, m3, m4, m5, m6, m7, m8, _⟩ :=
        moved_add P hP (hi.hist.reach h.E le_rfl) o3 hcap (leaf := ⟨c, P.pub s0, 0⟩) (js := s0) rfl s rnd rw'
      have hg'e : g'.epoch = h.E + 1 := by rw [m2.epoch, hE]
      have e : onSignal P (some y.owner) s rnd rw' (.keyPackage c (some ⟨c, P.pub s0, 0⟩)) =
          (some ⟨some g', so, true⟩, .added c wel (h.E + 1) cm) := by
        unfold onSignal addMember
        rw [o1]
        dsimp only
        rw [add_like P o2 _ _ _ _ (by rw [m1]), m1]
        dsimp only
        rw [if_neg (by decide), hg'e]
        rfl
      rw [e]
      dsimp only
      have hW1 : (h.push w' cm).W (h.E + 1) = w' := by unfold Hist.push; dsimp only; rw [if_pos rfl]
      refine ⟨h.push w' cm, ⟨push_ok P hi.hist hP o3 m2, ?_, ?_, ?_, hi.notOwner, fun x => ?_⟩, trivial⟩
      · refine ⟨g', g', so, rfl, ⟨g'.gen, rfl⟩, (congrFun hW1 0).trans m2.owner, ?_⟩
        rw [m2.cids 0 (by rw [o3]; rfl) id]
        exact o4
      · intro e cm' he
        show e ≤ h.E + 1
        rcases List.mem_append.1 he with he | he
        · exact Nat.le_succ_of_le (hi.up e cm' he)
        · simp only [List.mem_cons, Up.commit.injEq, List.not_mem_nil, or_false] at he
          exact he.1.le
      · show h.E + 1 + 1 < 2 ^ 64
        omega
      · by_cases ex : x = c
        · subst ex
          have hup : ∀ e cm', Up.commit e cm' ∈ y.up ++ [Up.commit (h.E + 1) cm] → e ≤ h.E + 1 := by
            intro e cm' he
            rcases List.mem_append.1 he with he | he
            · exact Nat.le_succ_of_le (hi.up e cm' he)
            · simp only [List.mem_cons, Up.commit.injEq, List.not_mem_nil, or_false] at he
              exact he.1.le
          refine .welcomed s0 ((y.down x).filter isCtl) (if y.roster x then cut x (y.up ++ [.commit (h.E + 1) cm]) else []) wel wel.joiner (h.E + 1) hj
            a1 (put_same _ _ _) a3 ?_ ?_ m6 ?_ ?_ ⟨m4, le_rfl, fun _ => ⟨rfl, ?_, ?_⟩⟩
          · unfold fq
            dsimp only
            rw [put_same, List.filter_append, List.append_assoc]
            rfl
          · intro z hz
            have := a4 z (by unfold fq; exact List.mem_append.2 (.inl hz))
            revert this
            show Plain h.E z → Plain (h.E + 1) z
            cases z with
            | accepted => exact id
            | sig z => cases z with
              | commit e _ => exact fun hx => Nat.le_succ_of_le hx
              | _ => exact id
          · rw [m8, hg'e, hW1]; exact m5
          · rw [m8, hg'e]
            refine track_old fun z hz => ?_
            split at hz
            · exact cut_plain hup z hz
            · simp at hz
          · show ((h.push w' cm).W (h.E + 1) wel.joiner).isSome
            rw [hW1, m5]; rfl
          · intro g1 hg1
            have hg1 : (h.push w' cm).W (h.E + 1) 0 = some g1 := hg1
            rw [hW1, m2.owner, Option.some.injEq] at hg1
            rw [← hg1]
            exact m7
        · have hu := fun (ow : Cgka M) cl kp (dn : Nat → List (Down M)) sn (e1 : dn x = y.down x) =>
            fq_up (y := y) (y' := ⟨ow, cl, y.roster, kp, y.up ++ [.commit (h.E + 1) cm], dn, sn⟩) (c := x) (v := [.commit (h.E + 1) cm]) e1 rfl rfl
          have hac := fun (ow : Cgka M) cl kp (dn : Nat → List (Down M)) sn =>
            active_up (y := y) (y' := ⟨ow, cl, y.roster, kp, y.up ++ [.commit (h.E + 1) cm], dn, sn⟩) (c := x) (v := [.commit (h.E + 1) cm]) rfl rfl
          refine status_push P hi.hist (hi.status x) o3 m2 rfl (put_other _ _ ex) rfl rfl (put_other _ _ ex) ?_ (fun _ _ hx => hx.elim) ?_
          · exact fun hx => ((hac _ _ _ _ _).1 hx).1
          · by_cases ha : Active y x
            · exact .inl ⟨(hac _ _ _ _ _).2 ⟨ha, by simp⟩, (hu _ _ _ _ _ (put_other _ _ ex)).1 ha⟩
            · exact .inr ⟨fun hx => ha ((hac _ _ _ _ _).1 hx).1, (hu _ _ _ _ _ (put_other _ _ ex)).2 ha⟩

theorem act_kick (hP : Lawful P) {h : Hist M} {o : Nat} {y : Sys M} (hi : SysInv P h o y) {c : Nat} (hc : c ≠ o) (s : M)
    (rnd : Nat → Nat → Nat) (hroom : Room y) :
    ∃ h', SysInv P h' o (act P y (.kick c s rnd)).1 ∧ Calm (act P y (.kick c s rnd)).2 := by
  obtain ⟨g, g0, so, o1, o2, o3, o4⟩ := hi.owner
  have hgt : g.tree = g0.tree ∧ g.epoch = g0.epoch := by obtain ⟨n, rfl⟩ := o2; exact ⟨rfl, rfl⟩
  obtain ⟨hcap, hep⟩ := hroom g (by rw [o1])
  rw [hgt.2] at hep
  have hE := hi.hist.epoch h.E le_rfl 0 g0 o3
  unfold act
  dsimp only
  cases hl : leafOfCid g.tree c with
  | none =>
    have e : removeByCid P y.owner c s rnd = (y.owner, .ok none) := by
      unfold removeByCid
      rw [o1]
      dsimp only
      rw [if_neg (by decide), hl]
    rw [e]
    dsimp only
    refine ⟨h, inv_same hi ⟨g, g0, so, o1, o2, o3, o4⟩ (fun _ _ he => by simpa using he) rfl fun x => ?_, trivial⟩
    refine status_same P (hi.status x) rfl rfl rfl (fun h1 h2 => ⟨h1, h2⟩) ?_ (fun ⟨h1, h2⟩ => ⟨h1, fun hx => h2 (by simp [hx])⟩)
    have hu := fun (ow : Cgka M) cl kp (dn : Nat → List (Down M)) sn (e1 : dn x = y.down x) =>
      fq_up (y := y) (y' := ⟨ow, cl, y.roster, kp, y.up ++ [.kick c], dn, sn⟩) (c := x) (v := [.kick c]) e1 rfl rfl
    by_cases ha : Active y x
    · rw [(hu _ _ _ _ _ rfl).1 ha]
      have : cut x [Up.kick (M := M) c] = [] := by simp [cut]
      rw [this, List.append_nil]
    · exact (hu _ _ _ _ _ rfl).2 ha
  | some j =>
    obtain ⟨lj, hlj, hcj⟩ := leafOfCid_some hl
    rw [hgt.1] at hlj
    have hcid : cidAt g0.tree j = some c := by
      unfold cidAt nd
      rw [hlj]
      simp [hcj]
    have hj0 : (0 : Nat) ≠ j := by
      rintro rfl
      rw [o4, Option.some.injEq] at hcid
      exact hc hcid.symm
    have hjs : (h.W h.E j).isSome := by
      rw [← C24_members P hP (hi.hist.reach h.E le_rfl) o3 j]
      exact ⟨lj, by rw [show 2 * j = leafToNode j by unfold leafToNode; omega]; exact hlj⟩
    obtain ⟨w', g', cm, m1, m2, _⟩ := moved_remove P hP (hi.hist.reach h.E le_rfl) o3 hjs hj0 s rnd
    have hg'e : g'.epoch = h.E + 1 := by rw [m2.epoch, hE]
    have e : removeByCid P y.owner c s rnd = (⟨some g', so, true⟩, .ok (some (cm, h.E + 1))) := by
      unfold removeByCid removeMember
      rw [o1]
      dsimp only
      rw [if_neg (by decide), hl]
      dsimp only
      rw [if_neg (by decide), remove_like P o2 _ _ _ (by rw [m1]), m1]
      dsimp only
      rw [hg'e]
      rfl
    rw [e]
    dsimp only
    have hW1 : (h.push w' cm).W (h.E + 1) = w' := by unfold Hist.push; dsimp only; rw [if_pos rfl]
    refine ⟨h.push w' cm, ⟨push_ok P hi.hist hP o3 m2, ?_, ?_, ?_, hi.notOwner, fun x => ?_⟩, trivial⟩
    · refine ⟨g', g', so, rfl, ⟨g'.gen, rfl⟩, (congrFun hW1 0).trans m2.owner, ?_⟩
      rw [m2.cids 0 (by rw [o3]; rfl) hj0]
      exact o4
    · intro e cm' he
      show e ≤ h.E + 1
      rcases List.mem_append.1 he with he | he
      · exact Nat.le_succ_of_le (hi.up e cm' he)
      · simp only [List.mem_cons, reduceCtorEq, Up.commit.injEq, List.not_mem_nil, or_false, false_or] at he
        exact he.1.le
    · show h.E + 1 + 1 < 2 ^ 64
      omega
    · have hu := fun (ow : Cgka M) cl kp (dn : Nat → List (Down M)) sn (e1 : dn x = y.down x) =>
        fq_up (y := y) (y' := ⟨ow, cl, y.roster, kp, y.up ++ [.kick c, .commit (h.E + 1) cm], dn, sn⟩) (c := x) (v := [.kick c, .commit (h.E + 1) cm]) e1 rfl rfl
      have hac := fun (ow : Cgka M) cl kp (dn : Nat → List (Down M)) sn =>
        active_up (y := y) (y' := ⟨ow, cl, y.roster, kp, y.up ++ [.kick c, .commit (h.E + 1) cm], dn, sn⟩) (c := x) (v := [.kick c, .commit (h.E + 1) cm]) rfl rfl
      refine status_push P hi.hist (hi.status x) o3 m2 rfl rfl rfl rfl rfl (fun hx => ((hac _ _ _ _ _).1 hx).1) ?_ ?_
      · intro hx q hq hqc
        have hxc := ((hac _ _ _ _ _).1 hx).2
        rw [hq, hcid, Option.some.injEq] at hqc
        exact hxc (by simp [hqc])
      · by_cases ex : x = c
        · subst ex
          refine .inr ⟨fun hx => ((hac _ _ _ _ _).1 hx).2 (by simp), ?_⟩
          by_cases ha : Active y x
          · rw [(hu _ _ _ _ _ rfl).1 ha]
            simp [cut]
          · exact (hu _ _ _ _ _ rfl).2 ha
        · by_cases ha : Active y x
          · refine .inl ⟨(hac _ _ _ _ _).2 ⟨ha, by simp [ex]⟩, ?_⟩
            rw [(hu _ _ _ _ _ rfl).1 ha]
            simp [cut, Ne.symm ex]
          · exact .inr ⟨fun hx => ha ((hac _ _ _ _ _).1 hx).1, (hu _ _ _ _ _ rfl).2 ha⟩

theorem inv_act (hP : Lawful P) {h : Hist M} {o : Nat} {y : Sys M} (hi : SysInv P h o y) {a : Act M} (ha : Proper o y a) :
    (∃ h', SysInv P h' o (act P y a).1) ∧ Calm (act P y a).2 := by
  cases a with
  | accept c => exact ⟨⟨h, act_accept hi ha.1 ha.2⟩, trivial⟩
  | add c s rnd rw =>
    obtain ⟨h', h1, h2⟩ := act_add hP hi s rnd rw ha
    exact ⟨⟨h', h1⟩, h2⟩
  | kick c s rnd =>
    obtain ⟨h', h1, h2⟩ := act_kick hP hi ha.1 s rnd ha.2
    exact ⟨⟨h', h1⟩, h2⟩
  | relay => exact ⟨⟨h, (act_relay hi).1⟩, (act_relay hi).2⟩
  | client c s => exact ⟨⟨h, (act_client hi c s).1⟩, (act_client hi c s).2⟩
  | leave c => exact ⟨⟨h, act_leave hi c⟩, trivial⟩
  | send c m => exact ⟨⟨h, (act_send hi c m).1⟩, (act_send hi c m).2⟩
  | ownerSend m => exact ⟨⟨h, (act_ownerSend hi m).1⟩, (act_ownerSend hi m).2⟩

theorem sys_inv (hP : Lawful P) {o : Nat} {y : Sys M} (hy : SysReach P o y) : ∃ h, SysInv P h o y := by
  induction hy with
  | start s => exact inv_start P hP o s
  | act a _ ha ih =>
    obtain ⟨h, hi⟩ := ih
    exact (inv_act hP hi ha).1

end Verif.GroupCgka

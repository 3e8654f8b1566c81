import Verif.GroupCgka.RelayKeep
import Verif.GroupCgka.Props
/-
Properties of a group with a faithful relay: C72, C79-C81, and a second counterexample to C78.
-/
namespace Verif.GroupCgka

open Verif.TreeKem Verif.TreeMath Verif.Sym

section

variable {M : Type} {P : Prims M}

/-! ### C72 -/

/-- C72: with a faithful relay no session ends and nothing panics, whatever the interleaving. -/
theorem C72_no_failure (hP : Lawful P) {o : Nat} {y : Sys M} (hy : SysReach P o y) {a : Act M} (ha : Proper o y a) :
    (act P y a).2 ≠ .ended ∧ (act P y a).2 ≠ .panic := by
  obtain ⟨h, hi⟩ := sys_inv hP hy
  have := (inv_act hP hi ha).2
  constructor <;> (intro e; rw [e] at this; exact this)

/-- The group states of the owner and the clients. -/
def Holds (y : Sys M) (who : Option Nat) (g : GroupState M) : Prop :=
  match who with
  | none => y.owner.group = some g
  | some c => ∃ cl, y.clients c = some cl ∧ cl.group = some g

theorem holds_world {h : Hist M} {o : Nat} {y : Sys M} (hi : SysInv P h o y) {who : Option Nat} {g : GroupState M} (hg : Holds y who g) :
    ∃ g0 q, Like g g0 ∧ h.W g0.epoch q = some g0 ∧ g0.epoch ≤ h.E := by
  cases who with
  | none =>
    obtain ⟨g1, g0, s, h1, h2, h3, _⟩ := hi.owner
    unfold Holds at hg
    dsimp only at hg
    rw [h1] at hg
    cases hg
    have he := hi.hist.epoch h.E le_rfl 0 g0 h3
    exact ⟨g0, 0, h2, by rw [he]; exact h3, he.le⟩
  | some c =>
    obtain ⟨cl, h1, h2⟩ := hg
    cases hi.status c with
    | absent a1 => rw [h1] at a1; cases a1
    | invited a b a1 => rw [h1] at a1; cases a1
    | waiting s a1 => rw [h1] at a1; cases a1; cases h2
    | welcomed s a b wel q f hj a1 => rw [h1] at a1; cases a1; cases h2
    | joined s g1 g0 q f a1 a2 a3 a4 a5 a6 a7 =>
      rw [h1] at a1
      cases a1
      cases h2
      exact ⟨g0, q, a4, a5, a6.le.trans a7.2.1⟩

theorem decrypt_same (hP : Lawful P) {g g' : GroupState M} (h1 : g.epoch = g'.epoch) (h2 : g.secrets = g'.secrets) (m : M) :
    decryptMessage P g' (encryptMessage P g m).2 = some m := by
  unfold decryptMessage encryptMessage
  dsimp only
  rw [if_pos h1, h2, hP.open_seal]

/-- C72: whoever is in the same epoch, owner or client, at whatever moment, has the same tree, secrets and transcript, and reads what
the other seals. -/
theorem C72_agreement (hP : Lawful P) {o : Nat} {y : Sys M} (hy : SysReach P o y) {a b : Option Nat} {g g' : GroupState M}
    (ha : Holds y a g) (hb : Holds y b g') (he : g.epoch = g'.epoch) :
    g.tree = g'.tree ∧ g.secrets = g'.secrets ∧ g.transcript = g'.transcript ∧
      ∀ m, decryptMessage P g' (encryptMessage P g m).2 = some m := by
  obtain ⟨h, hi⟩ := sys_inv hP hy
  obtain ⟨g0, q, ⟨n, h1⟩, h2, h3⟩ := holds_world hi ha
  obtain ⟨g0', q', ⟨n', h1'⟩, h2', h3'⟩ := holds_world hi hb
  have e : g0.epoch = g0'.epoch := by rw [h1, h1'] at he; exact he
  rw [← e] at h2'
  obtain ⟨k1, k2, k3, k4, _⟩ := C24_agreement P hP (hi.hist.reach _ h3) h2 h2'
  have hs : g.secrets = g'.secrets := by rw [h1, h1']; exact k3
  refine ⟨by rw [h1, h1']; exact k1, hs, by rw [h1, h1']; exact k4, decrypt_same hP he hs⟩

/-- C72: a client on the roster for whom nothing is under way has joined, unless its key package has not got to the owner; it is
in the owner's epoch with the owner's secrets, and its leaf carries its cid. -/
theorem C72_catch_up (hP : Lawful P) {o : Nat} {y : Sys M} (hy : SysReach P o y) {c : Nat} (hr : y.roster c = true) (hu : y.up = [])
    (hd : y.down c = []) (hk : y.kps c = none) :
    ∃ g go l, Holds y (some c) g ∧ Holds y none go ∧ g.epoch = go.epoch ∧ g.secrets = go.secrets ∧ g.tree = go.tree ∧
      g.transcript = go.transcript ∧ go.tree[2 * g.ownLeaf]? = some (.leaf l) ∧ l.cid = c := by
  obtain ⟨h, hi⟩ := sys_inv hP hy
  have hq : fq y c = [] := by
    unfold fq
    rw [hd, hu, if_pos hr]
    rfl
  have ha : Active y c := ⟨hr, by rw [hu]; simp⟩
  obtain ⟨go, go0, so, o1, ⟨no, o2⟩, o3, o4⟩ := hi.owner
  have hoe := hi.hist.epoch h.E le_rfl 0 go0 o3
  cases hi.status c with
  | absent a1 a2 a3 a4 => rw [hr] at a4; cases a4
  | invited a b a1 a2 a3 a4 => rw [hq] at a4; simp at a4
  | waiting s a1 a2 => rw [hk] at a2; cases a2
  | welcomed s a b wel q f hj a1 a2 a3 a4 => rw [hq] at a4; simp at a4
  | joined s g g0 q f a1 a2 a3 a4 a5 a6 a7 =>
    rw [hq] at a6
    obtain ⟨hf, hs, hc⟩ := a7.2.2 ha
    have hge : g0.epoch = h.E := by cases a6; exact hf
    rw [hge] at a5
    obtain ⟨n, rfl⟩ := a4
    obtain ⟨k1, k2, k3, k4, k5, _⟩ := C24_agreement P hP (hi.hist.reach _ le_rfl) a5 o3
    have hcid := hc go0 o3
    unfold cidAt at hcid
    split at hcid
    · rename_i l hl
      have hl' : go0.tree[2 * q]? = some (.leaf l) := by
        rw [show 2 * q = leafToNode q by unfold leafToNode; omega]
        unfold nd at hl
        cases hx : go0.tree[leafToNode q]? with
        | none => rw [hx] at hl; cases hl
        | some z => rw [hx] at hl; rw [← hl]; rfl
      refine ⟨_, go, l, ⟨_, a1, rfl⟩, by unfold Holds; rw [o1], ?_, ?_, ?_, ?_, ?_, by simpa using hcid⟩
      · rw [o2]; exact k2
      · rw [o2]; exact k3
      · rw [o2]; exact k1
      · rw [o2]; exact k4
      · rw [o2]; dsimp only; rw [k5]; exact hl'
    · cases hcid

def runActs (P : Prims M) (y : Sys M) : List (Act M) → Sys M
  | [] => y
  | a :: as => runActs P (act P y a).1 as

theorem relays (P : Prims M) : ∀ (n : Nat) (y : Sys M), y.up.length = n →
    (runActs P y (List.replicate n .relay)).up = [] ∧ (runActs P y (List.replicate n .relay)).owner = y.owner ∧
      (runActs P y (List.replicate n .relay)).kps = y.kps ∧
      ∀ c, Up.kick c ∉ y.up → (runActs P y (List.replicate n .relay)).roster c = y.roster c
  | 0, y, h => ⟨List.length_eq_zero_iff.1 h, rfl, rfl, fun _ _ => rfl⟩
  | n + 1, y, h => by
    rw [List.replicate_succ, runActs]
    cases hu : y.up with
    | nil => rw [hu] at h; cases h
    | cons u rest =>
      rw [hu] at h
      have hl : rest.length = n := by simpa using h
      have step : (act P y .relay).1.up = rest ∧ (act P y .relay).1.owner = y.owner ∧ (act P y .relay).1.kps = y.kps ∧
          ∀ c, u ≠ .kick c → (act P y .relay).1.roster c = y.roster c := by
        unfold act
        dsimp only
        rw [hu]
        cases u with
        | kick k => exact ⟨rfl, rfl, rfl, fun c hc => put_other _ _ (by rintro rfl; exact hc rfl)⟩
        | commit e cm => exact ⟨rfl, rfl, rfl, fun _ _ => rfl⟩
        | message a => exact ⟨rfl, rfl, rfl, fun _ _ => rfl⟩
      obtain ⟨r1, r2, r3, r4⟩ := relays P n (act P y .relay).1 (by rw [step.1]; exact hl)
      refine ⟨r1, r2.trans step.2.1, r3.trans step.2.2.1, fun c hc => ?_⟩
      rw [List.mem_cons, not_or] at hc
      rw [r4 c (by rw [step.1]; exact hc.2), step.2.2.2 c (Ne.symm hc.1)]

theorem reads (P : Prims M) (c : Nat) (s : M) : ∀ (n : Nat) (y : Sys M), (y.down c).length = n →
    (runActs P y (List.replicate n (.client c s))).down c = [] ∧ (runActs P y (List.replicate n (.client c s))).owner = y.owner ∧
      (runActs P y (List.replicate n (.client c s))).up = y.up ∧ (runActs P y (List.replicate n (.client c s))).roster = y.roster
  | 0, y, h => ⟨List.length_eq_zero_iff.1 h, rfl, rfl, rfl⟩
  | n + 1, y, h => by
    rw [List.replicate_succ, runActs]
    cases hu : y.down c with
    | nil => rw [hu] at h; cases h
    | cons d rest =>
      rw [hu] at h
      have hl : rest.length = n := by simpa using h
      have step : (act P y (.client c s)).1.down c = rest ∧ (act P y (.client c s)).1.owner = y.owner ∧
          (act P y (.client c s)).1.up = y.up ∧ (act P y (.client c s)).1.roster = y.roster := by
        unfold act
        dsimp only
        rw [hu]
        cases d with
        | accepted => exact ⟨put_same _ _ _, rfl, rfl, rfl⟩
        | sig x => exact ⟨put_same _ _ _, rfl, rfl, rfl⟩
      obtain ⟨r1, r2, r3, r4⟩ := reads P c s n (act P y (.client c s)).1 (by rw [step.1]; exact hl)
      exact ⟨r1, r2.trans step.2.1, r3.trans step.2.2.1, r4.trans step.2.2.2⟩

theorem runActs_append (P : Prims M) : ∀ (as bs : List (Act M)) (y : Sys M), runActs P y (as ++ bs) = runActs P (runActs P y as) bs
  | [], _, _ => rfl
  | a :: as, bs, y => by rw [List.cons_append, runActs, runActs_append P as bs]; rfl

theorem reach_easy {o : Nat} : ∀ {as : List (Act M)}, (∀ a ∈ as, ∀ y : Sys M, Proper o y a) → ∀ {y : Sys M}, SysReach P o y → SysReach P o (runActs P y as)
  | [], _, _, h => h
  | a :: as, ha, y, h => reach_easy (as := as) (fun b hb => ha b (by simp [hb])) (y := (act P y a).1) (.act a h (ha a (by simp) y))

theorem member_stays {c : Nat} {a : Act M} (he : a = .relay ∨ ∃ s, a = .client c s) {y : Sys M} {g : GroupState M} (hk : y.kps c = none)
    (hg : Holds y (some c) g) : ∃ g', Holds (act P y a).1 (some c) g' ∧ (act P y a).1.kps c = none := by
  obtain ⟨cl, h1, h2⟩ := hg
  rcases he with rfl | ⟨s, rfl⟩
  · refine ⟨g, ⟨cl, ?_, h2⟩, ?_⟩ <;> unfold act <;> dsimp only <;> split <;> assumption
  · unfold act
    dsimp only
    split
    · exact ⟨g, ⟨cl, h1, h2⟩, hk⟩
    · rw [h1]
      exact ⟨g, ⟨cl, put_same _ _ _, h2⟩, hk⟩
    · rename_i x rest _
      rw [h1]
      have : ∃ cl' g', (onSignal P (some cl) s (fun _ _ => 0) 0 x).1 = some cl' ∧ cl'.group = some g' := by
        cases x with
        | keyPackage j kp =>
          unfold onSignal addMember
          dsimp only
          split
          · exact ⟨cl, g, rfl, h2⟩
          · cases kp with
            | none => exact ⟨cl, g, rfl, h2⟩
            | some leaf => rw [h2]; exact ⟨_, _, rfl, rfl⟩
        | welcome w =>
          unfold onSignal join
          dsimp only
          cases w with
          | none => exact ⟨cl, g, rfl, h2⟩
          | some w =>
            dsimp only
            split
            · exact ⟨_, _, rfl, rfl⟩
            · exact ⟨cl, g, rfl, h2⟩
            · exact ⟨cl, g, rfl, h2⟩
        | commit e cm =>
          unfold onSignal processCommit
          dsimp only
          rw [h2]
          dsimp only
          split
          · exact ⟨cl, g, rfl, h2⟩
          · split
            · exact ⟨cl, g, rfl, h2⟩
            · cases cm with
              | none => exact ⟨cl, g, rfl, h2⟩
              | some cm => exact ⟨_, _, rfl, rfl⟩
        | message a => exact ⟨cl, g, rfl, h2⟩
      obtain ⟨cl', g', k1, k2⟩ := this
      exact ⟨g', ⟨cl', (put_same _ _ _).trans k1, k2⟩, hk⟩

theorem member_stays_all {c : Nat} : ∀ {as : List (Act M)}, (∀ a ∈ as, a = .relay ∨ ∃ s, a = .client c s) → ∀ {y : Sys M} {g : GroupState M},
    y.kps c = none → Holds y (some c) g → (runActs P y as).kps c = none
  | [], _, _, _, hk, _ => hk
  | a :: as, ha, y, g, hk, hg => by
    obtain ⟨g', h1, h2⟩ := member_stays (P := P) (ha a (by simp)) hk hg
    exact member_stays_all (as := as) (fun b hb => ha b (by simp [hb])) (y := (act P y a).1) h2 h1

/-- C72: from any moment on, once all that the owner has sent has been relayed and a member has read what is there for it, the member
has the owner's secrets; no cooperation of anyone else is needed. -/
theorem C72_settles (hP : Lawful P) {o : Nat} {y : Sys M} (hy : SysReach P o y) {c : Nat} (hr : y.roster c = true)
    (hk : Up.kick c ∉ y.up) {g go : GroupState M} (hg : Holds y (some c) g) (hgo : Holds y none go) (s : M) :
    ∃ n m g', Holds (runActs P y (List.replicate n .relay ++ List.replicate m (.client c s))) (some c) g' ∧
      g'.epoch = go.epoch ∧ g'.secrets = go.secrets ∧ g'.tree = go.tree := by
  obtain ⟨h, hi⟩ := sys_inv hP hy
  have hkp : y.kps c = none := by
    obtain ⟨cl, h1, h2⟩ := hg
    cases hi.status c with
    | absent a1 => rw [h1] at a1; cases a1
    | invited a b a1 => rw [h1] at a1; cases a1
    | waiting s a1 => rw [h1] at a1; cases a1; cases h2
    | welcomed s a b wel q f hj a1 => rw [h1] at a1; cases a1; cases h2
    | joined s g1 g0 q f a1 a2 => exact a2
  obtain ⟨r1, r2, r3, r4⟩ := relays P _ y rfl
  obtain ⟨d1, d2, d3, d4⟩ := reads P c s _ (runActs P y (List.replicate y.up.length .relay)) rfl
  refine ⟨y.up.length, ((runActs P y (List.replicate y.up.length .relay)).down c).length, ?_⟩
  have hacts : ∀ a ∈ List.replicate y.up.length (Act.relay (M := M)) ++
      List.replicate ((runActs P y (List.replicate y.up.length .relay)).down c).length (.client c s), a = .relay ∨ ∃ s, a = .client c s := by
    intro a ha
    rcases List.mem_append.1 ha with ha | ha
    · exact .inl (List.eq_of_mem_replicate ha)
    · exact .inr ⟨s, List.eq_of_mem_replicate ha⟩
  have hy' := reach_easy (P := P) (o := o) (as := List.replicate y.up.length (Act.relay (M := M)) ++
      List.replicate ((runActs P y (List.replicate y.up.length .relay)).down c).length (.client c s)) (by
    intro a ha z
    rcases hacts a ha with rfl | ⟨s, rfl⟩ <;> trivial) hy
  have hkp' := member_stays_all (P := P) hacts hkp hg
  rw [runActs_append] at hy' hkp' ⊢
  obtain ⟨g1, go1, l, k1, k2, k3, k4, k5, _⟩ := C72_catch_up hP hy' (c := c) (by rw [d4, r4 c hk]; exact hr) (d3.trans r1) d1 hkp'
  have : go1 = go := by
    unfold Holds at k2 hgo
    dsimp only at k2 hgo
    rw [d2, r2, hgo] at k2
    cases k2
    rfl
  subst this
  exact ⟨g1, k1, k3, k4, k5⟩

/-! ### C80 -/

/-- C80 for a message that is read in the epoch in which it was sent, whoever sent it. -/
theorem C80_same_epoch_partial (hP : Lawful P) {o : Nat} {y : Sys M} (hy : SysReach P o y) {a : Option Nat} {c : Nat} {g g' : GroupState M}
    (ha : Holds y a g) (hc : Holds y (some c) g') (he : g.epoch = g'.epoch) (m : M) {rest : List (Down M)}
    (hd : y.down c = .sig (.message (some (encryptMessage P g m).2)) :: rest) (s : M) : (act P y (.client c s)).2 = .plain m := by
  have := (C72_agreement hP hy ha hc he).2.2.2 m
  obtain ⟨cl, h1, h2⟩ := hc
  unfold act
  dsimp only
  rw [hd]
  dsimp only
  unfold onSignal decrypt
  rw [h1]
  dsimp only
  rw [h2]
  dsimp only
  rw [this]

/-- In any other epoch it is lost without a trace. -/
theorem C80_counterexample_general {y : Sys M} {c : Nat} {g' : GroupState M} (hc : Holds y (some c) g') {a : AppMsg M}
    (he : a.epoch ≠ g'.epoch) {rest : List (Down M)} (hd : y.down c = .sig (.message (some a)) :: rest) (s : M) :
    (act P y (.client c s)).2 = .nothing ∧ (act P y (.client c s)).1.clients c = y.clients c ∧ (act P y (.client c s)).1.down c = rest := by
  obtain ⟨cl, h1, h2⟩ := hc
  have e : onSignal P (y.clients c) s (fun _ _ => 0) 0 (.message (some a)) = (some cl, .nothing) := by
    unfold onSignal decrypt
    rw [h1]
    dsimp only
    rw [h2]
    dsimp only
    unfold decryptMessage
    rw [if_neg he]
  unfold act
  dsimp only
  rw [hd]
  dsimp only
  rw [e]
  exact ⟨rfl, by rw [put_same, h1], put_same _ _ _⟩

/-! ### C81 -/

/-- C81 is false of the code: leaving does not change the group's keys, so with its state a member that has left reads what the owner
and the members send until someone else is added or kicked. -/
theorem C81_counterexample (hP : Lawful P) {o : Nat} {y : Sys M} (hy : SysReach P o y) {c : Nat} {a : Option Nat} {g g' : GroupState M}
    (hc : Holds y (some c) g) (ha : Holds y a g') (he : g'.epoch = g.epoch) :
    (act P y (.leave c)).1.roster c = false ∧ Holds (act P y (.leave c)).1 a g' ∧ Holds (act P y (.leave c)).1 (some c) g ∧
      ∀ m, decryptMessage P g (encryptMessage P g' m).2 = some m := by
  refine ⟨put_same _ _ _, ha, hc, ?_⟩
  exact (C72_agreement hP hy ha hc he).2.2.2

end

/-! ### Concrete runs -/

section

def exStart : Sys Term := Sys.start symPrims 1 (.fresh 0)

/-- 2 is let in, publishes its key package, the owner adds it, the server relays the commit, 2 reads the Welcome and the commit. -/
def exJoin : List (Act Term) :=
  [.accept 2, .client 2 (.fresh 1), .add 2 (.fresh 2) exR 0, .relay, .client 2 (.fresh 9), .client 2 (.fresh 9)]

/-- Decidable form of `Proper`. -/
def properB (o : Nat) (y : Sys Term) : Act Term → Bool
  | .accept c => c != o && y.seen c == false
  | .add _ _ _ _ => match y.owner.group with
    | some g => decide (numLeaves g.tree < 2 ^ 31) && decide (g.epoch + 2 < 2 ^ 64)
    | none => true
  | .kick c _ _ => c != o && match y.owner.group with
    | some g => decide (numLeaves g.tree < 2 ^ 31) && decide (g.epoch + 2 < 2 ^ 64)
    | none => true
  | _ => true

theorem proper_of {o : Nat} {y : Sys Term} {a : Act Term} (h : properB o y a = true) : Proper o y a := by
  have room : (match y.owner.group with
      | some g => decide (numLeaves g.tree < 2 ^ 31) && decide (g.epoch + 2 < 2 ^ 64)
      | none => true) = true → Room y := by
    intro h g hg
    rw [hg] at h
    dsimp only at h
    rw [Bool.and_eq_true, decide_eq_true_eq, decide_eq_true_eq] at h
    exact h
  cases a with
  | accept c =>
    simp only [properB, Bool.and_eq_true, bne_iff_ne, beq_iff_eq] at h
    exact h
  | add c s rnd rw => exact room h
  | kick c s rnd =>
    simp only [properB] at h
    rw [Bool.and_eq_true, bne_iff_ne] at h
    exact ⟨h.1, room h.2⟩
  | _ => trivial

def properAll (o : Nat) (y : Sys Term) : List (Act Term) → Bool
  | [] => true
  | a :: as => properB o y a && properAll o (act symPrims y a).1 as

theorem reach_of {o : Nat} : ∀ {as : List (Act Term)} {y : Sys Term}, SysReach symPrims o y → properAll o y as = true →
    SysReach symPrims o (runActs symPrims y as)
  | [], _, h, _ => h
  | a :: as, y, h, hp => by
    rw [properAll, Bool.and_eq_true] at hp
    exact reach_of (as := as) (y := (act symPrims y a).1) (.act a h (proper_of hp.1)) hp.2

def secretsOf (y : Sys Term) : Option Nat → Option (Nat × Secrets Term)
  | none => y.owner.group.map fun g => (g.epoch, g.secrets)
  | some c => (y.clients c).bind fun cl => cl.group.map fun g => (g.epoch, g.secrets)

/-- The hypotheses of `C72_catch_up` are met. -/
example : SysReach symPrims 1 (runActs symPrims exStart exJoin) :=
  reach_of (.start _) (by decide +kernel)

example : let y := runActs symPrims exStart exJoin
    y.roster 2 = true ∧ y.up.length = 0 ∧ (y.down 2).length = 0 ∧ y.kps 2 = none ∧ (secretsOf y (some 2)).map (·.1) = some 1 ∧
      secretsOf y (some 2) = secretsOf y none := by
  decide +kernel

/-- 3 joins while 2 reads nothing; 2 is then kicked by the owner. All of it is proper, and nobody gets stuck. -/
example : let y := runActs symPrims exStart (exJoin ++ [.accept 3, .client 3 (.fresh 3), .add 3 (.fresh 4) exR 0, .send 2 (.fresh 10),
      .client 3 (.fresh 9), .relay, .kick 2 (.fresh 5) exR, .client 3 (.fresh 9), .relay, .relay, .client 3 (.fresh 9), .client 3 (.fresh 9)])
    SysReach symPrims 1 y ∧ y.roster 2 = false ∧ y.roster 3 = true ∧ (secretsOf y (some 3)).map (·.1) = some 3 ∧
      secretsOf y (some 3) = secretsOf y none ∧ (secretsOf y (some 2)).map (·.1) = some 1 := by
  exact ⟨reach_of (.start _) (by decide +kernel), by decide +kernel⟩

def outIs : Out Term → Nat
  | .nothing => 0
  | .plain _ => 1
  | .added _ _ _ _ => 2
  | .ended => 3
  | .panic => 4

/-- C80 is false of the code: 3 joins through its Welcome, which overtakes the commit, and sends; 2 gets the message before the
commit and drops it, though all is relayed in order and 2 is a member all the time. The same if 2 sends before it reads the commit:
its message gets to 3, who is in the next epoch. -/
theorem C80_counterexample :
    let y := runActs symPrims exStart (exJoin ++ [.accept 3, .client 3 (.fresh 3), .add 3 (.fresh 4) exR 0, .client 3 (.fresh 9), .send 3 (.fresh 10)])
    let z := runActs symPrims y [.send 2 (.fresh 11)]
    SysReach symPrims 1 y ∧ y.roster 2 = true ∧ (secretsOf y (some 2)).map (·.1) = some 1 ∧ (secretsOf y (some 3)).map (·.1) = some 2 ∧
      (y.down 2).length = 1 ∧ outIs (act symPrims y (.client 2 (.fresh 9))).2 = 0 ∧
      (z.down 3).length = 1 ∧ outIs (act symPrims z (.client 3 (.fresh 9))).2 = 0 := by
  exact ⟨reach_of (.start _) (by decide +kernel), by decide +kernel⟩

/-- The same message, read in the epoch in which it was sent, is delivered. -/
example : let y := runActs symPrims exStart (exJoin ++ [.accept 3, .client 3 (.fresh 3), .add 3 (.fresh 4) exR 0, .client 3 (.fresh 9), .relay, .send 3 (.fresh 10),
      .client 2 (.fresh 9)])
    (y.down 2).length = 1 ∧ outIs (act symPrims y (.client 2 (.fresh 9))).2 = 1 := by
  decide +kernel

/-! ### C79 -/

/-- C79 is false of the code: 2 is kicked after it was let in and before its key package gets to the owner. The kick finds no leaf;
the owner then adds 2 to the group. 2 is off the roster and has the group's secrets. -/
theorem C79_counterexample :
    let y := runActs symPrims exStart [.accept 2, .client 2 (.fresh 1), .kick 2 (.fresh 2) exR, .relay, .add 2 (.fresh 3) exR 0, .relay, .client 2 (.fresh 9)]
    SysReach symPrims 1 y ∧ y.up.length = 0 ∧ y.roster 2 = false ∧ (secretsOf y (some 2)).map (·.1) = some 1 ∧
      secretsOf y (some 2) = secretsOf y none := by
  exact ⟨reach_of (.start _) (by decide +kernel), by decide +kernel⟩

/-! ### C78 -/

/-- C78 again: 2 is kicked and let in again before the commit that removes it is relayed. It gets its own removal, which ends its
session. -/
theorem C78_counterexample_race :
    let y := runActs symPrims exStart (exJoin ++ [.kick 2 (.fresh 5) exR, .relay, .accept 2, .relay, .client 2 (.fresh 9)])
    SysReach symPrims 1 (runActs symPrims exStart (exJoin ++ [.kick 2 (.fresh 5) exR, .relay])) ∧
      outIs (act symPrims y (.client 2 (.fresh 9))).2 = 3 := by
  exact ⟨reach_of (.start _) (by decide +kernel), by decide +kernel⟩

end

end Verif.GroupCgka

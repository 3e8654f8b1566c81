import Verif.Ranks.Steps
/-
C153, C155-C157: who is where in a command hierarchy, and what that lets them read.
-/
namespace Verif.Ranks
open Verif Verif.Hierarchy

variable {M : Type} [DecidableEq M] {P : Prims M}

/-- A group with a hierarchy, after some actions. -/
structure Hist (P : Prims M) (o : Cid) (pol : Policy) (ranks : AMap Cid Path) (root : M) (acts : List (Act M)) (y : Sys M) : Prop where
  nodup : AMap.NodupKeys ranks
  noRank : ranks.get? o = none
  proper : ∀ a ∈ acts, Proper o a
  run : ∃ s k, y = Ranks.run P (Sys.start P o s k root (some (pol, ranks))) acts

/-- Nothing is under way that would change the position of `c`. -/
def Settled (y : Sys M) (c : Cid) : Prop := ∀ ct, Routed.assign ct ∉ y.routed c

theorem Hist.inv (hP : Lawful P) {o : Cid} {pol : Policy} {ranks : AMap Cid Path} {root : M} {acts : List (Act M)} {y : Sys M}
    (h : Hist P o pol ranks root acts y) :
    Inv P o pol (rootOf root acts) y ∧ ∀ c, y.owner.ranks.get? c = rankOf c (ranks.get? c) acts := by
  obtain ⟨s, k, rfl⟩ := h.run
  exact (Inv.start o s k root pol ranks h.nodup h.noRank).run hP acts h.proper

/-! ### C153: members are where the owner put them -/

/-- **C153.** A member of the group for whom no assignment is under way is at the rank it was given last, below the root that was
drawn last; one that never got a rank has none. -/
theorem C153_settled (hP : Lawful P) {o : Cid} {pol : Policy} {ranks : AMap Cid Path} {root : M} {acts : List (Act M)} {y : Sys M}
    (h : Hist P o pol ranks root acts y) {c : Cid} {cl : Client M} (hc : y.clients c = some cl) (ht : InTree y c) (hs : Settled y c) :
    (∀ p, rankOf c (ranks.get? c) acts = some p →
      cl.mode = some pol ∧ cl.self = some ⟨p, node P (rootOf root acts) p, pol⟩) ∧
    (rankOf c (ranks.get? c) acts = none → cl.mode = none ∧ cl.self = none) := by
  obtain ⟨hi, hr⟩ := h.inv hP
  refine ⟨fun p hp => ?_, fun hn => ?_⟩
  · have := hi.ranked c cl p hc (by rw [hr]; exact hp) ht
    unfold Settles at this
    rw [lastAssign_none.mpr hs] at this
    exact this
  · obtain ⟨h1, h2, -⟩ := hi.unranked c cl hc (by rw [hr]; exact hn)
    exact ⟨h1, h2⟩

/-- **C153.** The owner stays at the root that was drawn last. -/
theorem C153_owner (hP : Lawful P) {o : Cid} {pol : Policy} {ranks : AMap Cid Path} {root : M} {acts : List (Act M)} {y : Sys M}
    (h : Hist P o pol ranks root acts y) : y.owner.self = some ⟨[], rootOf root acts, pol⟩ ∧ y.owner.mode = some pol :=
  ⟨(h.inv hP).1.self, (h.inv hP).1.mode⟩

/-- **C153.** An assignment from the owner never ends the session of the member it is for. -/
theorem C153_applies (hP : Lawful P) {o : Cid} {pol : Policy} {ranks : AMap Cid Path} {root : M} {acts : List (Act M)} {y : Sys M}
    (h : Hist P o pol ranks root acts y) {c : Cid} {ct : M} {rest : List (Routed M)} (hq : y.routed c = .assign ct :: rest) :
    (act P y (.getRouted c)).2.ended = false := by
  obtain ⟨hi, -⟩ := h.inv hP
  obtain ⟨cl, m, h1, h2, h3⟩ := hi.queue c ct (by rw [hq]; exact List.mem_cons_self)
  have hco : ¬ c = y.owner.cid := by rw [hi.ocid]; exact (hi.client c cl h1).1
  have happ : ∃ cl', applyAssignment P cl ct = some cl' := by
    unfold applyAssignment
    rw [h2]
    exact ⟨_, rfl⟩
  obtain ⟨cl', happ⟩ := happ
  simp only [act, hq]
  rw [if_neg hco]
  simp only [h1, happ]

theorem encrypt_dhe {cl : Client M} {m : Member M} {pol : Policy} (hm : cl.mode = some pol) (hs : cl.self = some m) (ck x : M) (r : Nat) :
    encrypt P cl ck x r = (m.sealMessage P (flatKey cl) ck x r).map .dhe := by
  unfold encrypt
  rw [hm, hs]

theorem decrypt_dhe {cl : Client M} {m : Member M} {pol : Policy} (hm : cl.mode = some pol) (hs : cl.self = some m) (e : Envelope M) :
    decrypt P cl (.dhe e) = m.openMessage P (flatKey cl) e := by
  simp only [decrypt, hm, hs]

theorem derive_node (root : M) (p : Path) : deriveSecret P root [] p = some (node P root p) := by
  have := deriveSecret_append P root [] p
  rw [List.nil_append] at this
  exact this

/-- **C153.** In a group for superiors only, a ranked member can send, its message is read by the owner, and of the other ranked
members exactly by those at or above its rank. Missing: members whose position is still under way, see
`C153_counterexample_in_flight`. -/
theorem C153_reads_partial (hP : Lawful P) {o : Cid} {ranks : AMap Cid Path} {root : M} {acts : List (Act M)} {y : Sys M}
    (h : Hist P o .superiorOnly ranks root acts y) {c : Cid} {cl : Client M} (hc : y.clients c = some cl) (ht : InTree y c)
    (hs : Settled y c) {p : Path} (hp : rankOf c (ranks.get? c) acts = some p) {ck : M} (hck : P.isKey ck = true) (x : M) (r : Nat) :
    ∃ msg, encrypt P cl ck x r = some msg ∧ decrypt P y.owner msg = some x ∧
      ∀ d dl q, y.clients d = some dl → InTree y d → Settled y d → rankOf d (ranks.get? d) acts = some q →
        (q <+: p → decrypt P dl msg = some x) ∧ (¬ q <+: p → decrypt P dl msg = none) := by
  obtain ⟨hm, hself⟩ := (C153_settled hP h hc ht hs).1 p hp
  obtain ⟨ho, hom⟩ := C153_owner hP h
  obtain ⟨e, he⟩ : ∃ e, (Member.mk p (node P (rootOf root acts) p) .superiorOnly).sealMessage P (flatKey cl) ck x r = some e :=
    ⟨_, rfl⟩
  refine ⟨.dhe e, by rw [encrypt_dhe hm hself, he]; rfl, ?_, ?_⟩
  · rw [decrypt_dhe hom ho]
    exact C29_superior_reads P hP (rootOf root acts) _ _ hck (derive_node _ _) (derive_node _ _) he List.nil_prefix
  · intro d dl q hd hdt hds hq
    obtain ⟨hdm, hdself⟩ := (C153_settled hP h hd hdt hds).1 q hq
    rw [decrypt_dhe hdm hdself]
    refine ⟨fun hpre => ?_, fun hpre => ?_⟩
    · exact C29_superior_reads P hP (rootOf root acts) _ _ hck (derive_node _ _) (derive_node _ _) he hpre
    · exact (C29_member_reads P hP _ _ hck he hpre).1 rfl

/-! ### C155: a kick does not take a position away -/

theorem rootOf_append (root : M) (as bs : List (Act M)) : rootOf root (as ++ bs) = rootOf (rootOf root as) bs := by
  induction as generalizing root with
  | nil => rfl
  | cons a as ih =>
    rw [List.cons_append, rootOf_cons, rootOf_cons root a as]
    exact ih _

theorem rootOf_no_demote (root : M) {as : List (Act M)} (h : ∀ c r s k n, Act.demote c r s k n ∉ as) : rootOf root as = root := by
  induction as with
  | nil => rfl
  | cons a as ih =>
    have ih := ih (fun c r s k n hm => h c r s k n (List.mem_cons_of_mem _ hm))
    cases a with
    | demote c r s k n => exact absurd List.mem_cons_self (h c r s k n)
    | _ => exact ih

/-- C155 is false of the code: a kick changes neither the root nor any position. Whatever the owner does later, as long as nobody is
demoted, the kicked member opens the messages of everybody at or below the rank it had, also of members that joined or were
given that rank after the kick. -/
theorem C155_counterexample (hP : Lawful P) {o : Cid} {ranks : AMap Cid Path} {root : M} {acts : List (Act M)} {y : Sys M}
    (h : Hist P o .superiorOnly ranks root acts y) {b : Cid} {bl : Client M} (hb : y.clients b = some bl) (hbt : InTree y b)
    (hbs : Settled y b) {q : Path} (hq : rankOf b (ranks.get? b) acts = some q)
    {s k : M} {later : List (Act M)} (hd : ∀ c r s k n, Act.demote c r s k n ∉ later) {y' : Sys M}
    (h' : Hist P o .superiorOnly ranks root (acts ++ .kick b s k :: later) y')
    {c : Cid} {cl : Client M} (hc : y'.clients c = some cl) (ht : InTree y' c) (hs : Settled y' c) {p : Path}
    (hp : rankOf c (ranks.get? c) (acts ++ .kick b s k :: later) = some p) (hpre : q <+: p) {ck : M} (hck : P.isKey ck = true)
    (x : M) (r : Nat) :
    ∃ msg, encrypt P cl ck x r = some msg ∧ decrypt P bl msg = some x := by
  obtain ⟨hm, hself⟩ := (C153_settled hP h' hc ht hs).1 p hp
  obtain ⟨hbm, hbself⟩ := (C153_settled hP h hb hbt hbs).1 q hq
  have hroot : rootOf root (acts ++ .kick b s k :: later) = rootOf root acts := by
    rw [rootOf_append]
    exact rootOf_no_demote (as := later) _ hd
  rw [hroot] at hself
  obtain ⟨e, he⟩ : ∃ e, (Member.mk p (node P (rootOf root acts) p) .superiorOnly).sealMessage P (flatKey cl) ck x r = some e :=
    ⟨_, rfl⟩
  refine ⟨.dhe e, by rw [encrypt_dhe hm hself, he]; rfl, ?_⟩
  rw [decrypt_dhe hbm hbself]
  exact C29_superior_reads P hP (rootOf root acts) _ _ hck (derive_node _ _) (derive_node _ _) he hpre

/-! ### C156: a position comes from the owner -/

/-- C156 is false of the code: whoever knows the public key of a member's leaf, which is in the tree that every member has, can give
it any position: the signal does not say who sealed it. The victim then sends under a key of the forger's choice, and the forger
reads it, whatever its own rank. -/
theorem C156_counterexample_forged (hP : Lawful P) (victim : Client M) (hv : victim.isOwner = false) (forged : Member M)
    (hpol : forged.policy = .superiorOnly) (r : Nat) :
    ∃ v', applyAssignment P victim (forged.sealTo P (P.leafPub victim.leafSecret) r) = some v' ∧
      ∀ (forger : Client M), forger.self = some forged → forger.mode = some .superiorOnly →
        ∀ ck x r', P.isKey ck = true → ∃ msg, encrypt P v' ck x r' = some msg ∧ decrypt P forger msg = some x := by
  have ho : openAssignment P (forged.sealTo P (P.leafPub victim.leafSecret) r) victim.leafSecret = some forged :=
    C29_assignment P hP forged victim.leafSecret r
  refine ⟨{ victim with mode := some forged.policy, self := some forged }, ?_, ?_⟩
  · unfold applyAssignment
    rw [ho]
    simp only [hv, if_true]
  · intro forger hf hfm ck x r' hck
    have hself : ({ victim with mode := some forged.policy, self := some forged } : Client M).self = some forged := rfl
    obtain ⟨e, he⟩ : ∃ e, forged.sealMessage P (flatKey { victim with mode := some forged.policy, self := some forged }) ck x r' = some e := by
      unfold Member.sealMessage sealEnv
      rw [hpol]
      exact ⟨_, rfl⟩
    refine ⟨.dhe e, by rw [encrypt_dhe rfl hself, he]; rfl, ?_⟩
    rw [decrypt_dhe hfm hf]
    obtain ⟨e1, e2, e3, -⟩ := seal_some P he
    unfold Member.openMessage openAsSuperior
    rw [e1, if_pos (isAncestorOf_iff.2 List.prefix_rfl), C30_self]
    dsimp only
    rw [e3, hP.hopen_hseal, Option.bind_some]
    unfold decryptBody
    rw [if_pos hck, e2, hP.sopen_sseal]

/-- … and one that does not open ends the session of whoever gets it. -/
theorem C156_counterexample_garbage (y : Sys M) {c : Cid} {cl : Client M} (hc : y.clients c = some cl) (hco : c ≠ y.owner.cid) {ct : M}
    (hct : openAssignment P ct cl.leafSecret = none) {rest : List (Routed M)} (hq : y.routed c = .assign ct :: rest) :
    (act P y (.getRouted c)).2.ended = true := by
  have happ : applyAssignment P cl ct = none := by
    unfold applyAssignment
    rw [hct]
  simp only [act, hq]
  rw [if_neg hco]
  simp only [hc, happ]

/-- The owner looks up the rank by the cid inside the key package and sends the position to whoever sent the package. So any client
`thief`, known to the group or not, gets the position of `v` by putting the cid of `v` into its key package. -/
theorem C156_counterexample_theft (hP : Lawful P) {o : Cid} {pol : Policy} {ranks : AMap Cid Path} {root : M} {acts : List (Act M)}
    {y : Sys M} (h : Hist P o pol ranks root acts y) {v thief : Cid} {p : Path} (hv : rankOf v (ranks.get? v) acts = some p)
    (s s' k : M) (r : Nat) :
    ∃ ct, Routed.assign ct ∈
        (act P { y with kps := put y.kps thief (some (v, P.leafPub s)) } (.add thief s' k r)).1.routed thief ∧
      openAssignment P ct s = some ⟨p, node P (rootOf root acts) p, pol⟩ := by
  obtain ⟨hi, hr⟩ := h.inv hP
  obtain ⟨g, hg⟩ := hi.group
  have hrv : y.owner.ranks.get? v = some p := by rw [hr]; exact hv
  refine ⟨Sealed.ct P ⟨thief, ⟨p, node P (rootOf root acts) p, pol⟩, P.leafPub s, r⟩, ?_, open_sealed hP _ rfl⟩
  simp only [act, put, if_pos, addMember_eq hi hg, hrv, Option.map_some, Option.toList_some]
  rw [List.mem_append]
  left
  simp [route]

/-! ### C157: who has no rank -/

/-- C157 is false of the code: a member without a rank stays in the flat mode. It reads no message of the hierarchy, also if the group is
one that all members should read, and nobody in the hierarchy, the owner included, reads what it sends. -/
theorem C157_counterexample (hP : Lawful P) {o : Cid} {pol : Policy} {ranks : AMap Cid Path} {root : M} {acts : List (Act M)}
    {y : Sys M} (h : Hist P o pol ranks root acts y) {c : Cid} {cl : Client M} (hc : y.clients c = some cl) (ht : InTree y c)
    (hs : Settled y c) (hr : rankOf c (ranks.get? c) acts = none) :
    (∀ e, decrypt P cl (.dhe e) = none) ∧
    ∀ ck x r msg, encrypt P cl ck x r = some msg →
      decrypt P y.owner msg = none ∧
      ∀ d dl q, y.clients d = some dl → InTree y d → Settled y d → rankOf d (ranks.get? d) acts = some q → decrypt P dl msg = none := by
  obtain ⟨hm, -⟩ := (C153_settled hP h hc ht hs).2 hr
  refine ⟨fun e => by simp only [decrypt, hm], fun ck x r msg he => ?_⟩
  obtain ⟨e, n, ct, rfl⟩ : ∃ e n ct, msg = .flat e n ct := by
    unfold encrypt at he
    rw [hm] at he
    simp only [Option.map_eq_some_iff] at he
    obtain ⟨g, -, rfl⟩ := he
    exact ⟨_, _, _, rfl⟩
  refine ⟨?_, ?_⟩
  · simp only [decrypt, (C153_owner hP h).2]
  · intro d dl q hd hdt hds hq
    simp only [decrypt, ((C153_settled hP h hd hdt hds).1 q hq).1]

/-- C157 for ranked members: in a group that all should read, a ranked member that is in the group can send, and every ranked member in
the same epoch, and the owner, reads it. Missing: members without a rank. -/
theorem C157_ranked_partial (hP : Lawful P) {o : Cid} {ranks : AMap Cid Path} {root : M} {acts : List (Act M)} {y : Sys M}
    (h : Hist P o .broadcastAudit ranks root acts y) {c : Cid} {cl : Client M} (hc : y.clients c = some cl) (ht : InTree y c)
    (hs : Settled y c) {p : Path} (hp : rankOf c (ranks.get? c) acts = some p) {g : Group M} (hg : cl.group = some g)
    {ck : M} (hck : P.isKey ck = true) (x : M) (r : Nat) :
    ∃ msg, encrypt P cl ck x r = some msg ∧ decrypt P y.owner msg = some x ∧
      ∀ d dl q, y.clients d = some dl → InTree y d → Settled y d → rankOf d (ranks.get? d) acts = some q →
        dl.group = some g → decrypt P dl msg = some x := by
  obtain ⟨hm, hself⟩ := (C153_settled hP h hc ht hs).1 p hp
  obtain ⟨ho, hom⟩ := C153_owner hP h
  have hfl : ∀ {z : Client M}, z.mode = some .broadcastAudit → z.group = some g → flatKey z = some g.key := by
    intro z h1 h2
    unfold flatKey
    rw [if_pos h1, h2]
    rfl
  obtain ⟨e, he⟩ : ∃ e, (Member.mk p (node P (rootOf root acts) p) .broadcastAudit).sealMessage P (some g.key) ck x r = some e :=
    ⟨_, rfl⟩
  refine ⟨.dhe e, by rw [encrypt_dhe hm hself, hfl hm hg, he]; rfl, ?_, ?_⟩
  · rw [decrypt_dhe hom ho]
    exact C29_superior_reads P hP (rootOf root acts) _ _ hck (derive_node _ _) (derive_node _ _) he List.nil_prefix
  · intro d dl q hd hdt hds hq hdg
    obtain ⟨hdm, hdself⟩ := (C153_settled hP h hd hdt hds).1 q hq
    rw [decrypt_dhe hdm hdself, hfl hdm hdg]
    by_cases hpre : q <+: p
    · exact C29_superior_reads P hP (rootOf root acts) _ _ hck (derive_node _ _) (derive_node _ _) he hpre
    · exact (C29_member_reads P hP _ _ hck he hpre).2.2 rfl rfl

end Verif.Ranks

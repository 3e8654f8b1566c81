import Verif.KeyStore.Model
import Verif.Hybrid.Props

/-! Lemmas for C62, C63, C64, C67. -/
namespace Verif.KeyStore
open Verif Verif.Hybrid

def PkPair (P : KPrims) (pk sk : Bytes) : Prop := ∃ r, P.kemKeygen r = (pk, sk)
def SigPair (P : KPrims) (spk ssk : Bytes) : Prop := ∃ r, P.sigKeygen r = (spk, ssk)

/-- What is assumed of the primitives: everything encrypted, encapsulated or signed with a generated key pair opens or
verifies, and hashes have their fixed lengths. -/
structure KPrims.Correct (P : KPrims) : Prop where
  prims : P.toPrims.Correct (PkPair P) (SigPair P)
  kem : ∀ r re, ∃ ct ss, P.encaps (P.kemKeygen r).1 re = some (ct, ss) ∧ P.decaps ct (P.kemKeygen r).2 = some ss
  sym : ∀ alg k n ad pt, P.symDec alg k n ad (P.symEnc alg k n ad pt) = some pt
  h512 : ∀ b, (P.h512 b).1.length = 32 ∧ (P.h512 b).2.length = 32

/-- Two containers that are the two ends of one exchange. -/
structure Ends (P : KPrims) (x y : Container) : Prop where
  params : x.params = y.params
  valid : validParams x.params = true
  chain : ∃ c, x.chain = some c ∧ y.chain = some c ∧ x.keys = some (c.alice, c.bob) ∧ y.keys = some (c.alice, c.bob) ∧
    c.chain.length = 32 ∧ c.alice.length = 32 ∧ c.bob.length = 32
  node : (x.node = .alice ∧ y.node = .bob) ∨ (x.node = .bob ∧ y.node = .alice)
  pkxy : ∃ pk sk, x.kex.remotePk = some pk ∧ y.kex.sk = some sk ∧ PkPair P pk sk
  pkyx : ∃ pk sk, y.kex.remotePk = some pk ∧ x.kex.sk = some sk ∧ PkPair P pk sk
  sig : x.params.sig = true → ∃ sx sy, x.sig = some sx ∧ y.sig = some sy ∧
    (∃ k, sy.remoteSpk = some k ∧ SigPair P k sx.ssk) ∧ (∃ k, sx.remoteSpk = some k ∧ SigPair P k sy.ssk)

theorem Ends.symm {P : KPrims} {x y : Container} (h : Ends P x y) : Ends P y x where
  params := h.params.symm
  valid := h.params ▸ h.valid
  chain := by obtain ⟨c, h1, h2, h3, h4, h5⟩ := h.chain; exact ⟨c, h2, h1, h4, h3, h5⟩
  node := h.node.symm.imp And.symm And.symm
  pkxy := h.pkyx
  pkyx := h.pkxy
  sig := by
    intro hs
    obtain ⟨sx, sy, h1, h2, h3, h4⟩ := h.sig (h.params ▸ hs)
    exact ⟨sy, sx, h2, h1, h4, h3⟩

def Chain.Wf (c : Chain) : Prop := c.chain.length = 32 ∧ c.alice.length = 32 ∧ c.bob.length = 32

theorem schedule_ok {P : KPrims} (hP : P.Correct) (prev : Option Chain) (ss : Bytes) (psks : List Bytes) :
    ∃ c, schedule P prev ss psks = .ok c ∧ c.Wf := by
  have hs := hP.prims.sha
  unfold schedule newChain
  cases prev with
  | none =>
    have h := hP.h512 (ss ++ psks.flatten)
    simp only
    rw [if_neg (by simp [hs, h.1, h.2])]
    exact ⟨_, rfl, hs _, h.1, h.2⟩
  | some p =>
    simp only
    rw [if_neg (by simp [hs])]
    exact ⟨_, rfl, hs _, hs _, hs _⟩

theorem exchange_ok {P : KPrims} (hP : P.Correct) (p : Params) (hp : validParams p = true) (prev : Option Chain)
    (psks : List Bytes) (r : Rnd) : ∃ a b, exchange P p p prev prev psks psks r = .ok (a, b) ∧ Ends P a b ∧ a.params = p := by
  obtain ⟨ct, ss, he, hd⟩ := hP.kem r.kemA r.encaps
  obtain ⟨c, hc, hw⟩ := schedule_ok hP prev ss psks
  have hk : ∀ sig, (p.sig = true → sig ≠ none) → keystore P p sig prev ss psks = .ok (c, (c.alice, c.bob)) := by
    intro sig hsig
    unfold keystore
    rw [hc]
    simp only [Res.bind]
    rw [if_neg]
    rintro ⟨h1, h2⟩
    apply hsig _ h2
    unfold validParams at hp
    simpa [h1] using hp
  unfold exchange newAlice
  rw [if_pos hp]
  simp only [Res.bind]
  cases hs : p.sig with
  | false =>
    simp only [transferA, newBob, hp, he, Res.ofOption, Res.bind, if_true, hk none (by simp [hs]), transferB, aliceReceive,
      hd, Bool.false_eq_true, if_false]
    refine ⟨_, _, rfl, ?_, rfl⟩
    exact { params := rfl, valid := hp, chain := ⟨c, rfl, rfl, rfl, rfl, hw⟩, node := Or.inl ⟨rfl, rfl⟩
            pkxy := ⟨_, _, rfl, rfl, r.kemB, rfl⟩, pkyx := ⟨_, _, rfl, rfl, r.kemA, rfl⟩
            sig := by intro h; simp only at h; rw [hs] at h; cases h }
  | true =>
    have hv1 : ∀ m, P.verify (P.sigKeygen r.sigA).1 m (P.sign (P.sigKeygen r.sigA).2 m r.signA) = true :=
      fun m => hP.prims.sig _ _ _ _ ⟨r.sigA, rfl⟩
    have hv2 : ∀ m, P.verify (P.sigKeygen r.sigB).1 m (P.sign (P.sigKeygen r.sigB).2 m r.signB) = true :=
      fun m => hP.prims.sig _ _ _ _ ⟨r.sigB, rfl⟩
    simp only [transferA, newBob, hp, he, Res.ofOption, Res.bind, if_true, hv1, transferB, aliceReceive,
      hd, Option.isSome_some, hv2, Option.map_some, hk (some _) (by simp)]
    refine ⟨_, _, rfl, ?_, rfl⟩
    exact { params := rfl, valid := hp, chain := ⟨c, rfl, rfl, rfl, rfl, hw⟩, node := Or.inl ⟨rfl, rfl⟩
            pkxy := ⟨_, _, rfl, rfl, r.kemB, rfl⟩, pkyx := ⟨_, _, rfl, rfl, r.kemA, rfl⟩
            sig := fun _ => ⟨_, _, rfl, rfl, ⟨_, rfl, r.sigA, rfl⟩, ⟨_, rfl, r.sigB, rfl⟩⟩ }

theorem exchangeAll_ok {P : KPrims} (hP : P.Correct) (psks : List Bytes) (o : List (Params × Option Chain)) :
    ∀ rs : List Rnd, (∀ q ∈ o, validParams q.1 = true) → rs.length = o.length →
    ∃ xs ys, exchangeAll P psks psks o o rs = .ok (xs, ys) ∧ List.Forall₂ (Ends P) xs ys ∧
      xs.map (·.params) = o.map (·.1) := by
  induction o with
  | nil => intro rs _ _; exact ⟨[], [], rfl, .nil, rfl⟩
  | cons q o ih =>
    intro rs hv hl
    cases rs with
    | nil => simp at hl
    | cons r rs =>
      obtain ⟨a, b, h1, h2, h3⟩ := exchange_ok hP q.1 (hv q (by simp)) q.2 psks r
      obtain ⟨xs, ys, g1, g2, g3⟩ := ih rs (fun q hq => hv q (by simp [hq])) (by simpa using hl)
      refine ⟨a :: xs, b :: ys, ?_, .cons h2 g2, by simp [h3, g3]⟩
      unfold exchangeAll
      rw [h1]
      simp only [Res.bind, g1]

theorem nextOpts_ok {P : KPrims} {xs ys : List Container} (h : List.Forall₂ (Ends P) xs ys) :
    ∃ o, nextOpts P xs = .ok o ∧ nextOpts P ys = .ok o ∧ o.map (·.1) = xs.map (·.params) := by
  have h1 : xs.all (fun c => c.chain.isSome) = true ∧ ys.all (fun c => c.chain.isSome) = true := by
    induction h with
    | nil => simp
    | cons h _ ih =>
      obtain ⟨c, h1, h2, _⟩ := h.chain
      simp [h1, h2, ih]
  have h2 : xs.map chainBytes = ys.map chainBytes := by
    clear h1
    induction h with
    | nil => rfl
    | cons h _ ih =>
      obtain ⟨c, h1, h2, _⟩ := h.chain
      simp [chainBytes, h1, h2, ih]
  have h3 : ∀ cat, (xs.map fun c => (c.params, c.chain.map fun ch => ({ ch with chain := P.sha cat } : Chain))) =
      (ys.map fun c => (c.params, c.chain.map fun ch => ({ ch with chain := P.sha cat } : Chain))) := by
    intro cat
    clear h1 h2
    induction h with
    | nil => rfl
    | cons h _ ih =>
      obtain ⟨c, h1, h2, _⟩ := h.chain
      simp [h1, h2, ih, h.params]
  unfold nextOpts
  rw [if_pos h1.1, if_pos h1.2, h2]
  simp only
  rw [← h3]
  exact ⟨_, rfl, rfl, by simp⟩

theorem forall₂_symm {P : KPrims} {xs ys : List Container} (h : List.Forall₂ (Ends P) xs ys) :
    List.Forall₂ (Ends P) ys xs := by
  induction h with
  | nil => exact .nil
  | cons h _ ih => exact .cons h.symm ih

theorem session_ok {P : KPrims} (hP : P.Correct) (psks : List Bytes) (params : List Params) (rnds : List Rnd)
    (hv : ∀ p ∈ params, validParams p = true) (hl : rnds.length = params.length) (rounds : List Round)
    (hr : ∀ rd ∈ rounds, rd.rnds.length = params.length) :
    ∃ xs ys, session P psks psks params rnds rounds = .ok (xs, ys) ∧ List.Forall₂ (Ends P) xs ys ∧
      xs.map (·.params) = params := by
  induction rounds with
  | nil =>
    obtain ⟨xs, ys, h1, h2, h3⟩ := exchangeAll_ok hP psks (params.map fun p => (p, (none : Option Chain))) rnds
      (by simpa using hv) (by simpa using hl)
    refine ⟨xs, ys, h1, h2, ?_⟩
    rw [h3, List.map_map]
    exact List.map_id _
  | cons rd rds ih =>
    obtain ⟨xs, ys, h1, h2, h3⟩ := ih (fun rd h => hr rd (by simp [h]))
    obtain ⟨o, o1, o2, o3⟩ := nextOpts_ok h2
    have hlen : o.length = params.length := by
      have := congrArg List.length o3
      rw [h3] at this
      simpa using this
    have hvo : ∀ q ∈ o, validParams q.1 = true := by
      intro q hq
      apply hv
      rw [← h3, ← o3]
      exact List.mem_map_of_mem hq
    obtain ⟨as, bs, g1, g2, g3⟩ := exchangeAll_ok hP psks o rd.rnds hvo (by rw [hr rd (by simp), hlen])
    unfold session rekey
    rw [h1]
    simp only [Res.bind, o1, o2, g1]
    split
    · refine ⟨bs, as, rfl, forall₂_symm g2, ?_⟩
      have : bs.map (·.params) = as.map (·.params) := by
        clear g1 g3
        induction g2 with
        | nil => rfl
        | cons h _ ih => simp [ih, h.params]
      rw [this, g3, o3, h3]
    · exact ⟨as, bs, rfl, g2, by rw [g3, o3, h3]⟩

theorem flatten_inj {n : Nat} (hn : 0 < n) (xs : List Bytes) : ∀ ys : List Bytes, (∀ x ∈ xs, x.length = n) →
    (∀ y ∈ ys, y.length = n) → xs.flatten = ys.flatten → xs = ys := by
  induction xs with
  | nil =>
    intro ys _ h2 h
    cases ys with
    | nil => rfl
    | cons y ys =>
      have h3 := congrArg List.length h
      have := h2 y (by simp)
      rw [List.flatten_cons, List.length_append, List.flatten_nil, List.length_nil] at h3
      omega
  | cons x xs ih =>
    intro ys h1 h2 h
    cases ys with
    | nil =>
      have h3 := congrArg List.length h
      have := h1 x (by simp)
      rw [List.flatten_cons, List.length_append, List.flatten_nil, List.length_nil] at h3
      omega
    | cons y ys =>
      simp only [List.flatten_cons] at h
      obtain ⟨e1, e2⟩ := List.append_inj h (by rw [h1 x (by simp), h2 y (by simp)])
      rw [e1, ih ys (fun z hz => h1 z (by simp [hz])) (fun z hz => h2 z (by simp [hz])) e2]

theorem xor_cancel (p : Bytes) : ∀ a b : Bytes, a.length = p.length → b.length = p.length → xor p a = xor p b → a = b := by
  unfold xor
  induction p with
  | nil => intro a b h1 h2 _; rw [List.length_eq_zero_iff.1 h1, List.length_eq_zero_iff.1 h2]
  | cons x p ih =>
    intro a b h1 h2 h
    cases a with
    | nil => simp at h1
    | cons u a =>
      cases b with
      | nil => simp at h2
      | cons v b =>
        simp only [List.zipWith_cons_cons, List.cons.injEq] at h
        obtain ⟨h3, h4⟩ := h
        rw [ih a b (by simpa using h1) (by simpa using h2) h4]
        congr 1
        have h5 := congrArg (fun t => x ^^^ t) h3
        simpa [← UInt8.xor_assoc] using h5

end Verif.KeyStore

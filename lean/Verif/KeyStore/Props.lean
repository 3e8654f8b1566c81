import Verif.KeyStore.Lemmas

/-! Properties C62, C63, C64 and C67 of the post-quantum container. -/
namespace Verif.KeyStore
open Verif Verif.Hybrid

/-- Lengths fit the 8-byte length fields of the hybrid format. -/
structure KPrims.Small (P : KPrims) (m : Bytes) : Prop where
  aes : ∀ k n ad, (P.aesEnc k n ad m).length < 2 ^ 64
  pke : ∀ pk d n, (P.pkeEnc pk d n).length < 2 ^ 64
  sig : ∀ k d r, (P.sign k d r).length < 2 ^ 64

/-- `y` opens everything `x` encrypts. -/
def Reads (P : KPrims) (x y : Container) : Prop :=
  ∀ nonce ad m (r : EncRnd), 12 ≤ nonce.length → r.dict.length = 32 → 32 ≤ r.pad.length → P.Small m →
    ∃ ct, encrypt P x nonce ad r m = .ok ct ∧ decrypt P y nonce ad ct = .ok m

theorem Ends.keys {P : KPrims} {x y : Container} (h : Ends P x y) :
    ∃ k, x.keys = some k ∧ y.keys = some k ∧ ownKey x k = otherKey y k := by
  obtain ⟨c, _, _, h3, h4, _⟩ := h.chain
  refine ⟨_, h3, h4, ?_⟩
  rcases h.node with ⟨h1, h2⟩ | ⟨h1, h2⟩ <;> simp [ownKey, otherKey, h1, h2]

theorem Ends.reads {P : KPrims} (hP : P.Correct) {x y : Container} (h : Ends P x y) : Reads P x y := by
  intro nonce ad m r hn hd hp hs
  obtain ⟨k, hk1, hk2, hk⟩ := h.keys
  unfold encrypt decrypt
  simp only [hk1, hk2, Res.ofOption, Res.bind, ← h.params]
  split
  · rename_i halg
    have hsig : x.params.sig = true := by
      have := h.valid
      unfold validParams at this
      simpa [halg] using this
    obtain ⟨sx, sy, h1, h2, h3, h4⟩ := h.sig hsig
    obtain ⟨ct, e1, e2⟩ := C65_roundtrip P.toPrims hP.prims (module x k sx) (module y k sy)
      ⟨hk, h.pkxy, h3⟩ nonce ad r.dict r.pad r.sign m hn hd hp hs.aes (fun _ => hs.pke _ _ _) (fun _ => hs.sig _ _ _)
    refine ⟨ct, ?_, ?_⟩
    · rw [h1]; simpa [Res.unwrap] using e1
    · rw [h2]; simpa [Res.unwrap] using e2
  · exact ⟨_, rfl, by rw [← hk, hP.sym]⟩

/-- **C63.** For every number of layers with valid parameters, every list of pre-shared keys, every first exchange and every
sequence of re-keys started by either side: both endpoints finish with as many containers as layers, and in every layer each
endpoint opens everything the other encrypts. -/
theorem C63_sessions_agree (P : KPrims) (hP : P.Correct) (psks : List Bytes) (params : List Params) (rnds : List Rnd)
    (hv : ∀ p ∈ params, validParams p = true) (hl : rnds.length = params.length) (rounds : List Round)
    (hr : ∀ rd ∈ rounds, rd.rnds.length = params.length) :
    ∃ xs ys, session P psks psks params rnds rounds = .ok (xs, ys) ∧ xs.length = params.length ∧
      ys.length = params.length ∧ xs.map (·.params) = params ∧ ys.map (·.params) = params ∧
      ∀ (i : Nat) x y, xs[i]? = some x → ys[i]? = some y → Reads P x y ∧ Reads P y x := by
  obtain ⟨xs, ys, h1, h2, h3⟩ := session_ok hP psks params rnds hv hl rounds hr
  have hxy : ys.map (·.params) = xs.map (·.params) := by
    clear h1 h3
    induction h2 with
    | nil => rfl
    | cons h _ ih => simp [ih, h.params]
  have hlen : xs.length = params.length := by rw [← h3]; simp
  refine ⟨xs, ys, h1, hlen, ?_, h3, by rw [hxy, h3], ?_⟩
  · have := congrArg List.length hxy
    simp only [List.length_map] at this
    omega
  · clear h1 h3 hxy hlen
    induction h2 with
    | nil => intro i x y hx; simp at hx
    | cons h _ ih =>
      intro i x y hx hy
      cases i with
      | zero =>
        simp only [List.getElem?_cons_zero, Option.some.injEq] at hx hy
        subst hx hy
        exact ⟨h.reads hP, h.symm.reads hP⟩
      | succ i =>
        simp only [List.getElem?_cons_succ] at hx hy
        exact ih i x y hx hy

/-! ### C62 -/

/-- **C62, counterexample.** In every session, at every layer, whatever one side encrypts "locally" the other side opens with
keys it holds: with ordinary decryption for the symmetric algorithms, with its copy of the sender's AES key for the hybrid. -/
theorem C62_counterexample (P : KPrims) (hP : P.Correct) (psks : List Bytes) (params : List Params) (rnds : List Rnd)
    (hv : ∀ p ∈ params, validParams p = true) (hl : rnds.length = params.length) (rounds : List Round)
    (hr : ∀ rd ∈ rounds, rd.rnds.length = params.length) (xs ys : List Container)
    (hs : session P psks psks params rnds rounds = .ok (xs, ys)) (i : Nat) (x y : Container) (hx : xs[i]? = some x)
    (hy : ys[i]? = some y) (nonce m : Bytes) :
    ∃ ct k, localEncrypt P x nonce m = .ok ct ∧ y.keys = some k ∧
      (x.params.alg ≠ .hybrid → decrypt P y nonce [] ct = .ok m) ∧
      (x.params.alg = .hybrid → P.symDec .aes (otherKey y k) nonce [] ct = some m) := by
  obtain ⟨xs', ys', h1, h2, h3⟩ := session_ok hP psks params rnds hv hl rounds hr
  rw [hs] at h1
  cases h1
  have h : Ends P x y := by
    clear hs h3
    induction h2 generalizing i with
    | nil => simp at hx
    | cons h _ ih =>
      cases i with
      | zero =>
        simp only [List.getElem?_cons_zero, Option.some.injEq] at hx hy
        subst hx hy
        exact h
      | succ i =>
        simp only [List.getElem?_cons_succ] at hx hy
        exact ih i hx hy
  obtain ⟨k, hk1, hk2, hk⟩ := h.keys
  refine ⟨P.symEnc (if x.params.alg = .hybrid then .aes else x.params.alg) (ownKey x k) nonce [] m, k, ?_, hk2, ?_, ?_⟩
  · simp [localEncrypt, hk1, Res.ofOption, Res.bind]
  · intro hne
    rw [if_neg hne]
    unfold decrypt
    simp only [hk2, Res.ofOption, Res.bind, ← h.params]
    rw [if_neg hne, ← hk, hP.sym]
  · intro he
    rw [if_pos he, ← hk, hP.sym]

/-- **C62, partial.** The owner restores the contents; the peer's *local* decryption refuses them, if the two directions have
different keys and the AEAD refuses foreign keys. Missing: the peer's ordinary decryption does open them, see above. -/
theorem C62_local_decrypt_partial (P : KPrims) (hP : P.Correct) (x y : Container) (h : Ends P x y)
    (hwrong : ∀ alg k k' n ad pt, k ≠ k' → P.symDec alg k' n ad (P.symEnc alg k n ad pt) = none)
    (k : Bytes × Bytes) (hk : x.keys = some k) (hne : k.1 ≠ k.2) (nonce m : Bytes) :
    ∃ ct, localEncrypt P x nonce m = .ok ct ∧ localDecrypt P x nonce ct = .ok m ∧ localDecrypt P y nonce ct = .err := by
  obtain ⟨k', hk1, hk2, hk3⟩ := h.keys
  rw [hk] at hk1
  cases hk1
  have hd : ownKey x k ≠ ownKey y k := by
    rcases h.node with ⟨h1, h2⟩ | ⟨h1, h2⟩ <;> simp [ownKey, h1, h2, hne, Ne.symm hne]
  unfold localEncrypt localDecrypt
  simp only [hk, hk2, Res.ofOption, Res.bind, ← h.params]
  refine ⟨_, rfl, ?_, ?_⟩
  · rw [hP.sym]
  · rw [hwrong _ _ _ _ _ _ hd]

/-! ### C64 -/

/-- **C64, counterexample at Bob.** Every valid hybrid configuration, offered an unsigned transfer with any encapsulable key,
panics. -/
theorem C64_counterexample_bob (P : KPrims) (hP : P.Correct) (prev : Option Chain) (psks : List Bytes) (r : Rnd) :
    validParams ⟨.hybrid, true⟩ = true ∧
    newBob P ⟨.hybrid, true⟩ prev (.pure (P.kemKeygen r.kemA).1) psks r = .panic := by
  refine ⟨by decide, ?_⟩
  obtain ⟨ct, ss, he, _⟩ := hP.kem r.kemA r.encaps
  obtain ⟨c, hc, _⟩ := schedule_ok hP prev ss psks
  have hv : validParams ⟨.hybrid, true⟩ = true := by decide
  simp only [newBob, hv, if_true, he, Res.ofOption, Res.bind, keystore, hc, true_and]

/-- **C64, counterexample at Alice.** A hybrid Alice accepts any unsigned answer that decapsulates, and then panics on every packet. -/
theorem C64_counterexample_alice (P : KPrims) (hP : P.Correct) (prev : Option Chain) (psks : List Bytes) (r : Rnd)
    (ct ss pkB : Bytes) (hd : P.decaps ct (P.kemKeygen r.kemA).2 = some ss) :
    ∃ a a', newAlice P ⟨.hybrid, true⟩ prev r = .ok a ∧ aliceReceive P a (.pure ct pkB) psks = .ok a' ∧
      ∀ nonce ad input, decrypt P a' nonce ad input = .panic := by
  obtain ⟨c, hc, _⟩ := schedule_ok hP prev ss psks
  have hv : validParams ⟨.hybrid, true⟩ = true := by decide
  unfold newAlice
  rw [if_pos hv]
  refine ⟨_, { params := ⟨.hybrid, true⟩, node := .alice
               kex := ⟨(P.kemKeygen r.kemA).1, some (P.kemKeygen r.kemA).2, some ct, some ss, some pkB⟩
               sig := some ⟨(P.sigKeygen r.sigA).1, (P.sigKeygen r.sigA).2, none⟩
               chain := some c, keys := some (c.alice, c.bob) }, rfl, ?_, ?_⟩
  · simp only [aliceReceive, Res.bind, Res.ofOption, hd, keystore, hc]
    rw [if_neg (by simp)]
    rfl
  · intro nonce ad input
    simp [decrypt, Res.ofOption, Res.bind, Res.unwrap, Hybrid.decrypt, module]

def A2B.signed : A2B → Bool
  | .mixed .. => true
  | .pure .. => false
def B2A.signed : B2A → Bool
  | .mixed .. => true
  | .pure .. => false

theorem schedule_no_panic (P : KPrims) (prev : Option Chain) (ss : Bytes) (psks : List Bytes) :
    schedule P prev ss psks ≠ .panic := by
  unfold schedule newChain
  cases prev <;> simp only <;> split <;> simp

/-- **C64, partial.** For every transfer whatsoever: Bob panics only on an unsigned transfer with the hybrid algorithm; an
accepted signed transfer carries a valid signature over the KEM key. A fresh Alice never panics; an accepted signed answer carries
a valid signature over the ciphertext; afterwards decryption panics on no input, if the answer was signed or the algorithm is not
the hybrid one. Missing: the two mixed-up cases above. -/
theorem C64_hostile_transfer_partial (P : KPrims) (params : Params) (prev : Option Chain) (psks : List Bytes) (r : Rnd) :
    (∀ tx, newBob P params prev tx psks r = .panic → params.alg = .hybrid ∧ tx.signed = false) ∧
    (∀ pk spk sig b, newBob P params prev (.mixed pk spk sig) psks r = .ok b → P.verify spk pk sig = true ∧
      b.kex.remotePk = some pk ∧ ∃ s, b.sig = some s ∧ s.remoteSpk = some spk) ∧
    (∀ a tx, newAlice P params prev r = .ok a → aliceReceive P a tx psks ≠ .panic) ∧
    (∀ a ct spk pk sig a', newAlice P params prev r = .ok a → aliceReceive P a (.mixed sig ct spk pk) psks = .ok a' →
      P.verify spk ct sig = true ∧ a'.kex.remotePk = some pk ∧ ∃ s, a'.sig = some s ∧ s.remoteSpk = some spk) ∧
    (∀ a tx a', newAlice P params prev r = .ok a → aliceReceive P a tx psks = .ok a' →
      (tx.signed = true ∨ params.alg ≠ .hybrid) →
      ∀ nonce ad input, 12 ≤ nonce.length → decrypt P a' nonce ad input ≠ .panic) := by
  refine ⟨?_, ?_, ?_, ?_, ?_⟩
  · intro tx h
    unfold newBob at h
    split at h
    swap
    · cases h
    cases tx with
    | pure pk =>
      cases he : P.encaps pk r.encaps with
      | none => simp [he, Res.ofOption, Res.bind] at h
      | some e =>
        simp only [he, Res.ofOption, Res.bind, keystore] at h
        cases hc : schedule P prev e.2 psks with
        | panic => exact absurd hc (schedule_no_panic _ _ _ _)
        | err => simp [hc] at h
        | ok c =>
          simp only [hc] at h
          by_cases hb : params.alg = .hybrid
          · exact ⟨hb, rfl⟩
          · simp [hb] at h
    | mixed pk spk sig =>
      exfalso
      cases he : P.encaps pk r.encaps with
      | none => simp [he, Res.ofOption, Res.bind] at h
      | some e =>
        simp only [he, Res.ofOption, Res.bind, keystore] at h
        by_cases hv : P.verify spk pk sig = true
        · simp only [hv, if_true] at h
          cases hc : schedule P prev e.2 psks with
          | panic => exact absurd hc (schedule_no_panic _ _ _ _)
          | err => simp [hc] at h
          | ok c => simp [hc] at h
        · simp [hv] at h
  · intro pk spk sig b h
    unfold newBob at h
    split at h
    swap
    · cases h
    cases he : P.encaps pk r.encaps with
    | none => simp [he, Res.ofOption, Res.bind] at h
    | some e =>
      simp only [he, Res.ofOption, Res.bind] at h
      by_cases hv : P.verify spk pk sig = true
      · simp only [hv, if_true, keystore] at h
        cases hc : schedule P prev e.2 psks with
        | panic => simp [hc, Res.bind] at h
        | err => simp [hc, Res.bind] at h
        | ok c =>
          simp only [hc, Res.bind] at h
          rw [if_neg (by simp)] at h
          simp only [Res.ok.injEq] at h
          subst h
          exact ⟨hv, rfl, _, rfl, rfl⟩
      · simp [hv] at h
  · intro a tx ha h
    unfold newAlice at ha
    split at ha
    swap
    · cases ha
    rename_i hp
    simp only [Res.ok.injEq] at ha
    subst ha
    unfold aliceReceive at h
    have hks : ∀ sig ss, (params.sig = true → sig ≠ none) → keystore P params sig prev ss psks ≠ .panic := by
      intro sig ss hsig hk
      unfold keystore at hk
      cases hc : schedule P prev ss psks with
      | panic => exact absurd hc (schedule_no_panic _ _ _ _)
      | err => simp [hc, Res.bind] at hk
      | ok c =>
        simp only [hc, Res.bind] at hk
        split at hk
        · rename_i hh
          refine hsig ?_ hh.2
          unfold validParams at hp
          simpa [hh.1] using hp
        · cases hk
    cases tx with
    | pure ct pk =>
      simp only [Res.bind, Res.ofOption] at h
      cases hd : P.decaps ct (P.kemKeygen r.kemA).2 with
      | none => simp [hd] at h
      | some ss =>
        simp only [hd] at h
        split at h
        · cases h
        · cases h
        · rename_i hk
          exact hks _ _ (by intro hs; simp [hs]) hk
    | mixed sig ct spk pk =>
      cases hs : params.sig with
      | false => simp [hs, Res.bind] at h
      | true =>
        simp only [hs, if_true, Option.isSome_some, Option.map_some] at h
        by_cases hv : P.verify spk ct sig = true
        · simp only [hv, if_true, Res.bind, Res.ofOption] at h
          cases hd : P.decaps ct (P.kemKeygen r.kemA).2 with
          | none => simp [hd] at h
          | some ss =>
            simp only [hd] at h
            split at h
            · cases h
            · cases h
            · rename_i hk
              exact hks _ _ (by intro _; simp) hk
        · simp [hv, Res.bind] at h
  · intro a ct spk pk sig a' ha h
    unfold newAlice at ha
    split at ha
    swap
    · cases ha
    simp only [Res.ok.injEq] at ha
    subst ha
    unfold aliceReceive at h
    cases hs : params.sig with
    | false => simp [hs, Res.bind] at h
    | true =>
      simp only [hs, if_true, Option.isSome_some, Option.map_some] at h
      by_cases hv : P.verify spk ct sig = true
      · simp only [hv, if_true, Res.bind, Res.ofOption] at h
        cases hd : P.decaps ct (P.kemKeygen r.kemA).2 with
        | none => simp [hd] at h
        | some ss =>
          simp only [hd] at h
          split at h
          · simp only [Res.ok.injEq] at h
            subst h
            exact ⟨hv, rfl, _, rfl, rfl⟩
          · cases h
          · cases h
      · simp [hv, Res.bind] at h
  · intro a tx a' ha h hk nonce ad input hn
    unfold newAlice at ha
    split at ha
    swap
    · cases ha
    simp only [Res.ok.injEq] at ha
    subst ha
    unfold aliceReceive at h
    cases tx with
    | pure ct pk =>
      simp only [Res.bind, Res.ofOption] at h
      cases hd : P.decaps ct (P.kemKeygen r.kemA).2 with
      | none => simp [hd] at h
      | some ss =>
        simp only [hd] at h
        split at h
        · simp only [Res.ok.injEq] at h
          subst h
          have hne : params.alg ≠ .hybrid := by
            rcases hk with hk | hk
            · cases hk
            · exact hk
          simp only [decrypt, Res.ofOption, Res.bind]
          rw [if_neg hne]
          split <;> simp
        · cases h
        · cases h
    | mixed sig ct spk pk =>
      cases hs : params.sig with
      | false => simp [hs, Res.bind] at h
      | true =>
        simp only [hs, if_true, Option.isSome_some, Option.map_some] at h
        by_cases hv : P.verify spk ct sig = true
        · simp only [hv, if_true, Res.bind, Res.ofOption] at h
          cases hd : P.decaps ct (P.kemKeygen r.kemA).2 with
          | none => simp [hd] at h
          | some ss =>
            simp only [hd] at h
            split at h
            · simp only [Res.ok.injEq] at h
              subst h
              simp only [decrypt, Res.ofOption, Res.bind, Res.unwrap]
              split
              · exact (C66_hostile_input P.toPrims _ spk _ rfl rfl nonce ad input hn).1
              · split <;> simp
            · cases h
            · cases h
        · simp [hv, Res.bind] at h

/-! ### C67 -/

/-- A hash evaluation. -/
inductive Call where
  | sha (input : Bytes)
  | h512 (input : Bytes)

/-- Two evaluations of one hash with different inputs and the same output. -/
def Collide (P : KPrims) : Call → Call → Prop
  | .sha a, .sha b => a ≠ b ∧ P.sha a = P.sha b
  | .h512 a, .h512 b => a ≠ b ∧ P.h512 a = P.h512 b
  | _, _ => False

/-- The hash evaluations that turn passwords and a shared secret into the two directional keys. -/
def calls (P : KPrims) (prev : Option Chain) (ss : Bytes) (pws : List Bytes) : List Call :=
  pws.map .sha ++
    match prev with
    | none => [.h512 (ss ++ (pws.map P.sha).flatten)]
    | some p =>
      let t := P.h512 (p.chain ++ ss ++ (pws.map P.sha).flatten)
      [.h512 (p.chain ++ ss ++ (pws.map P.sha).flatten), .sha (List.zipWith (· ^^^ ·) p.alice t.1),
        .sha (List.zipWith (· ^^^ ·) p.bob t.2)]

/-- The two lists of calls contain a collision. -/
def Broken (P : KPrims) (l l' : List Call) : Prop := ∃ u ∈ l, ∃ v ∈ l', Collide P u v

theorem hashed_inj (P : KPrims) (pw pw' : List Bytes) (h : pw.map P.sha = pw'.map P.sha) :
    pw = pw' ∨ Broken P (pw.map .sha) (pw'.map .sha) := by
  induction pw generalizing pw' with
  | nil =>
    cases pw' with
    | nil => exact Or.inl rfl
    | cons => simp at h
  | cons x pw ih =>
    cases pw' with
    | nil => simp at h
    | cons y pw' =>
      simp only [List.map_cons, List.cons.injEq] at h
      by_cases hxy : x = y
      · rcases ih pw' h.2 with h' | ⟨u, hu, v, hv, hc⟩
        · exact Or.inl (by rw [hxy, h'])
        · exact Or.inr ⟨u, by simp only [List.map_cons, List.mem_cons]; exact Or.inr hu, v,
            by simp only [List.map_cons, List.mem_cons]; exact Or.inr hv, hc⟩
      · exact Or.inr ⟨.sha x, by simp, .sha y, by simp, hxy, h.1⟩

theorem schedule_binds (P : KPrims) (hP : P.Correct) (prev : Option Chain) (hw : ∀ p, prev = some p → p.Wf) (ss : Bytes)
    (pw pw' : List Bytes) (c c' : Chain) (h : schedule P prev ss (psksOf P pw) = .ok c)
    (h' : schedule P prev ss (psksOf P pw') = .ok c') (ha : c.alice = c'.alice) :
    (c.bob = c'.bob → pw = pw' ∨ Broken P (calls P prev ss pw) (calls P prev ss pw')) := by
  intro hb
  have key : ∀ pre : Bytes, P.h512 (pre ++ ss ++ (pw.map P.sha).flatten) = P.h512 (pre ++ ss ++ (pw'.map P.sha).flatten) →
      pw = pw' ∨ Broken P (pw.map .sha) (pw'.map .sha) ∨
        Collide P (.h512 (pre ++ ss ++ (pw.map P.sha).flatten)) (.h512 (pre ++ ss ++ (pw'.map P.sha).flatten)) := by
    intro pre he
    by_cases hx : pre ++ ss ++ (pw.map P.sha).flatten = pre ++ ss ++ (pw'.map P.sha).flatten
    · have hf := flatten_inj (n := 32) (by decide) _ _ (by
          intro x hx
          obtain ⟨_, _, rfl⟩ := List.mem_map.1 hx
          exact hP.prims.sha _) (by
          intro x hx
          obtain ⟨_, _, rfl⟩ := List.mem_map.1 hx
          exact hP.prims.sha _) (List.append_cancel_left hx)
      rcases hashed_inj P pw pw' hf with h1 | h1
      · exact Or.inl h1
      · exact Or.inr (Or.inl h1)
    · exact Or.inr (Or.inr ⟨hx, he⟩)
  have left : Broken P (pw.map .sha) (pw'.map .sha) → Broken P (calls P prev ss pw) (calls P prev ss pw') := by
    rintro ⟨u, hu, v, hv, hc⟩
    exact ⟨u, List.mem_append_left _ hu, v, List.mem_append_left _ hv, hc⟩
  have nc : ∀ a b d e, newChain a b d = .ok e → e.alice = b ∧ e.bob = d := by
    intro a b d e hn
    unfold newChain at hn
    split at hn
    · cases hn
    · cases hn; exact ⟨rfl, rfl⟩
  cases prev with
  | none =>
    simp only [schedule, psksOf] at h h'
    obtain ⟨e1, e2⟩ := nc _ _ _ _ h
    obtain ⟨e1', e2'⟩ := nc _ _ _ _ h'
    have he : P.h512 ([] ++ ss ++ (pw.map P.sha).flatten) = P.h512 ([] ++ ss ++ (pw'.map P.sha).flatten) := by
      rw [List.nil_append]
      exact Prod.ext (by rw [← e1, ← e1', ha]) (by rw [← e2, ← e2', hb])
    rcases key [] he with h1 | h1 | h1
    · exact Or.inl h1
    · exact Or.inr (left h1)
    · refine Or.inr ⟨_, ?_, _, ?_, h1⟩ <;> simp [calls]
  | some p =>
    obtain ⟨_, w2, w3⟩ := hw p rfl
    simp only [schedule, psksOf] at h h'
    obtain ⟨e1, e2⟩ := nc _ _ _ _ h
    obtain ⟨e1', e2'⟩ := nc _ _ _ _ h'
    by_cases hx : xor p.alice (P.h512 (p.chain ++ ss ++ (pw.map P.sha).flatten)).1 =
        xor p.alice (P.h512 (p.chain ++ ss ++ (pw'.map P.sha).flatten)).1
    · by_cases hy : xor p.bob (P.h512 (p.chain ++ ss ++ (pw.map P.sha).flatten)).2 =
          xor p.bob (P.h512 (p.chain ++ ss ++ (pw'.map P.sha).flatten)).2
      · have g1 := xor_cancel _ _ _ (by rw [(hP.h512 _).1, w2]) (by rw [(hP.h512 _).1, w2]) hx
        have g2 := xor_cancel _ _ _ (by rw [(hP.h512 _).2, w3]) (by rw [(hP.h512 _).2, w3]) hy
        rcases key p.chain (Prod.ext g1 g2) with h1 | h1 | h1
        · exact Or.inl h1
        · exact Or.inr (left h1)
        · refine Or.inr ⟨_, ?_, _, ?_, h1⟩ <;> simp [calls]
      · refine Or.inr ⟨.sha _, ?_, .sha _, ?_, ⟨hy, by rw [← e2, ← e2', hb]⟩⟩ <;> simp [calls, xor]
    · refine Or.inr ⟨.sha _, ?_, .sha _, ?_, ⟨hx, by rw [← e1, ← e1', ha]⟩⟩ <;> simp [calls, xor]

theorem exchange_keys (P : KPrims) (hP : P.Correct) (p : Params) (prev : Option Chain) (psA psB : List Bytes) (r : Rnd)
    (a b : Container) (h : exchange P p p prev prev psA psB r = .ok (a, b)) :
    ∃ ss ca cb, a.kex.ss = some ss ∧ b.kex.ss = some ss ∧ schedule P prev ss psA = .ok ca ∧
      schedule P prev ss psB = .ok cb ∧ a.keys = some (ca.alice, ca.bob) ∧ b.keys = some (cb.alice, cb.bob) := by
  obtain ⟨ct, ss, he, hd⟩ := hP.kem r.kemA r.encaps
  obtain ⟨ca, hca, _⟩ := schedule_ok hP prev ss psA
  obtain ⟨cb, hcb, _⟩ := schedule_ok hP prev ss psB
  refine ⟨ss, ca, cb, ?_⟩
  by_cases hp : validParams p = true
  swap
  · simp [exchange, newAlice, hp, Res.bind] at h
  have hk : ∀ ps c sig, schedule P prev ss ps = .ok c → (p.sig = true → sig ≠ none) →
      keystore P p sig prev ss ps = .ok (c, (c.alice, c.bob)) := by
    intro ps c sig hc hsig
    unfold keystore
    rw [hc]
    simp only [Res.bind]
    rw [if_neg]
    rintro ⟨h1, h2⟩
    apply hsig _ h2
    unfold validParams at hp
    simpa [h1] using hp
  unfold exchange newAlice at h
  rw [if_pos hp] at h
  simp only [Res.bind] at h
  cases hs : p.sig with
  | false =>
    simp only [hs, transferA, newBob, hp, he, Res.ofOption, Res.bind, if_true, hk psB cb none hcb (by simp [hs]),
      transferB, aliceReceive, hd, Bool.false_eq_true, if_false, hk psA ca none hca (by simp [hs])] at h
    simp only [Res.ok.injEq, Prod.mk.injEq] at h
    obtain ⟨h1, h2⟩ := h
    subst h1 h2
    exact ⟨rfl, rfl, hca, hcb, rfl, rfl⟩
  | true =>
    have hv1 : ∀ m, P.verify (P.sigKeygen r.sigA).1 m (P.sign (P.sigKeygen r.sigA).2 m r.signA) = true :=
      fun m => hP.prims.sig _ _ _ _ ⟨r.sigA, rfl⟩
    have hv2 : ∀ m, P.verify (P.sigKeygen r.sigB).1 m (P.sign (P.sigKeygen r.sigB).2 m r.signB) = true :=
      fun m => hP.prims.sig _ _ _ _ ⟨r.sigB, rfl⟩
    simp only [hs, transferA, newBob, hp, he, Res.ofOption, Res.bind, if_true, hv1, transferB, aliceReceive, hd,
      Option.isSome_some, hv2, Option.map_some, hk psB cb (some _) hcb (by simp), hk psA ca (some _) hca (by simp)] at h
    simp only [Res.ok.injEq, Prod.mk.injEq] at h
    obtain ⟨h1, h2⟩ := h
    subst h1 h2
    exact ⟨rfl, rfl, hca, hcb, rfl, rfl⟩

/-- **C67.** For every exchange, first or later: if both ends derive the same two keys, they entered the same list of passwords,
or the hash evaluations of this very exchange contain a collision. -/
theorem C67_passwords_bind (P : KPrims) (hP : P.Correct) (p : Params) (prev : Option Chain) (hw : ∀ q, prev = some q → q.Wf)
    (pwA pwB : List Bytes) (r : Rnd) (a b : Container)
    (h : exchange P p p prev prev (psksOf P pwA) (psksOf P pwB) r = .ok (a, b)) (hk : a.keys = b.keys) :
    pwA = pwB ∨ ∃ ss, b.kex.ss = some ss ∧ Broken P (calls P prev ss pwA) (calls P prev ss pwB) := by
  obtain ⟨ss, ca, cb, _, h2, h3, h4, h5, h6⟩ := exchange_keys P hP p prev _ _ r a b h
  rw [h5, h6] at hk
  simp only [Option.some.injEq, Prod.mk.injEq] at hk
  rcases schedule_binds P hP prev hw ss pwA pwB ca cb h3 h4 hk.1 hk.2 with h7 | h7
  · exact Or.inl h7
  · exact Or.inr ⟨ss, h2, h7⟩

/-- Pre-shared keys handed to the low-level interface without hashing are only concatenated: different lists, same keys. -/
theorem C67_raw_keys_do_not_bind (P : KPrims) (prev : Option Chain) (ss x y : Bytes) :
    schedule P prev ss [x, y] = schedule P prev ss [x ++ y] := by
  simp [schedule]

/-! ### The hypotheses are met -/

/-- A prefix-free code. -/
def code (k : Bytes) : Bytes := (k.flatMap fun b => [1, b]) ++ [0]

theorem code_prefix : ∀ k k' p : Bytes, (code k ++ p).take (code k').length = code k' → k = k' := by
  intro k
  induction k with
  | nil =>
    intro k' p h
    cases k' with
    | nil => rfl
    | cons b k' => simp [code] at h
  | cons a k ih =>
    intro k' p h
    cases k' with
    | nil => simp [code] at h
    | cons b k' =>
      have e : ∀ x l, code (x :: l) = 1 :: x :: code l := by simp [code]
      rw [e, e] at h
      simp only [List.cons_append, List.length_cons, List.take_succ_cons, List.cons.injEq, true_and] at h
      rw [h.1, ih k' p h.2]

def toyP : KPrims where
  toPrims := { toy with
    aesEnc := fun k _ _ pt => k ++ pt
    sha := fun b => List.replicate 31 (UInt8.ofNat b.length) ++ [b.foldl (· + ·) 0] }
  h512 b := (List.replicate 31 1 ++ [b.foldl (· + ·) 0], List.replicate 31 2 ++ [b.foldl (· + ·) 0])
  kemKeygen n := ([UInt8.ofNat n], [UInt8.ofNat n])
  encaps pk r := some ([UInt8.ofNat r], pk ++ [UInt8.ofNat r])
  decaps ct sk := some (sk ++ ct)
  sigKeygen n := ([UInt8.ofNat n], [UInt8.ofNat n])
  symEnc _ k _ _ pt := code k ++ pt
  symDec _ k _ _ ct := if ct.take (code k).length = code k then some (ct.drop (code k).length) else none

theorem toyP_correct : toyP.Correct where
  prims := by
    refine ⟨?_, ?_, ?_, ?_⟩
    · intro k n ad pt; simp [toyP, toy]
    · rintro pk sk m n ⟨r, h⟩; cases h; simp [toyP, toy]
    · simp [toyP]
    · rintro spk ssk m r ⟨q, h⟩; cases h; simp [toyP, toy]
  kem := by intro r re; exact ⟨_, _, rfl, rfl⟩
  sym := by intro alg k n ad pt; simp [toyP]
  h512 := by intro b; simp [toyP]

/-- The premise on foreign keys of C62 is met, and so is `k.1 ≠ k.2` in an exchange. -/
example : ∀ alg k k' n ad pt, k ≠ k' → toyP.symDec alg k' n ad (toyP.symEnc alg k n ad pt) = none := by
  intro alg k k' n ad pt hne
  simp only [toyP]
  rw [if_neg]
  intro h
  exact hne (code_prefix _ _ _ h)

def rnd (n : Nat) : Rnd := ⟨n, n + 1, n + 2, n + 3, n + 4, n + 5, n + 6⟩

/-- Two layers (hybrid over AES), a first exchange and two re-keys by different initiators: the keys change and agree. -/
example :
    let ps : List Params := [⟨.aes, false⟩, ⟨.hybrid, true⟩]
    let s := session toyP [[7]] [[7]] ps [rnd 1, rnd 2] [⟨true, [rnd 3, rnd 4]⟩, ⟨false, [rnd 5, rnd 6]⟩]
    (match s with
      | .ok (xs, ys) => xs.map (·.keys) == ys.map (·.keys) && xs.length == 2 && xs.all (·.keys.isSome)
      | _ => false) = true := by decide +kernel

/-- Different passwords, different keys (no collision needed). -/
example :
    (match exchange toyP ⟨.aes, false⟩ ⟨.aes, false⟩ none none (psksOf toyP [[1]]) (psksOf toyP [[2]]) (rnd 0) with
      | .ok (a, b) => a.keys != b.keys && (match a.keys with | some k => k.1 != k.2 | none => false)
      | _ => false) = true := by decide +kernel

end Verif.KeyStore

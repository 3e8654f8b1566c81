import Verif.Hybrid.Model

/-! Properties C65 and C66: the hybrid module opens what its peer closed, and survives hostile input. -/
namespace Verif.Hybrid
open Verif

/-- What is assumed of the primitives. `PkPair`/`SigPair` relate public and secret keys. -/
structure Prims.Correct (P : Prims) (PkPair SigPair : Bytes → Bytes → Prop) : Prop where
  aes : ∀ k n ad pt, P.aesDec k n ad (P.aesEnc k n ad pt) = some pt
  pke : ∀ pk sk m n, PkPair pk sk → P.pkeDec sk (P.pkeEnc pk m n) = some m
  sha : ∀ b, (P.sha b).length = 32
  sig : ∀ spk ssk m r, SigPair spk ssk → P.verify spk m (P.sign ssk m r) = true

/-- `B` can read what `A` writes. -/
structure Matching (PkPair SigPair : Bytes → Bytes → Prop) (A B : Module) : Prop where
  key : A.keyLocal = B.keyRemote
  pke : ∃ pk sk, A.remotePk = some pk ∧ B.secretKey = some sk ∧ PkPair pk sk
  sig : ∃ spk, B.remoteSigPk = some spk ∧ SigPair spk A.sigSk

theorem descramble_scramble (dict pad buf : Bytes) (hp : 32 ≤ pad.length) :
    ∃ u, descramble dict (scramble dict pad buf) = .ok u ∧ u.take buf.length = buf := by
  have hlen : ∀ d f b, (shiftAll d f b).length = b.length := by simp [shiftAll]
  have hinv : ∀ b, shiftAll dict (· - ·) (shiftAll dict (· + ·) b) = b := by
    intro b
    apply List.ext_getElem
    · simp [hlen]
    · intro i h1 h2
      simp only [shiftAll, List.getElem_mapIdx]
      exact UInt8.add_sub_cancel _ _
  unfold descramble scramble
  obtain ⟨q, hq, hq1, hq2⟩ : ∃ q, (if buf.length % block ≠ 0 ∨ buf = [] then buf ++ pad.take (block - buf.length % block)
      else buf) = q ∧ q.length % block = 0 ∧ q.take buf.length = buf := by
    refine ⟨_, rfl, ?_⟩
    have hb : block = 32 := rfl
    split
    · rename_i h
      refine ⟨?_, List.take_left' rfl⟩
      rw [List.length_append, List.length_take, Nat.min_eq_left (by omega), hb]
      omega
    · rename_i h
      push Not at h
      exact ⟨h.1, List.take_of_length_le (Nat.le_refl _)⟩
  simp only [hq]
  rw [hlen, if_neg (by simpa using hq1), hinv]
  exact ⟨q, rfl, hq2⟩

theorem decodeLength_append (b : Bytes) (n : Nat) (hn : n < 2 ^ 64) (hb : n ≤ b.length + 8) :
    decodeLength (b ++ toBE 8 n) = .ok (n, b) := by
  have hn' : n < 256 ^ 8 := by
    have : (256 : Nat) ^ 8 = 2 ^ 64 := by norm_num
    omega
  unfold decodeLength
  have hl : (b ++ toBE 8 n).length = b.length + 8 := by simp
  simp only [hl, Nat.add_sub_cancel, List.drop_left' (l₁ := b) (l₂ := toBE 8 n) rfl,
    List.take_left' (l₁ := b) (l₂ := toBE 8 n) rfl, fromBE_toBE hn', length_toBE]
  rw [if_neg (by omega), if_neg (by omega)]

theorem decodeLength_ok {b : Bytes} {r : Nat × Bytes} (h : decodeLength b = .ok r) : b = r.2 ++ toBE 8 r.1 := by
  unfold decodeLength at h
  simp only at h
  split at h
  · cases h
  · rename_i h8
    split at h
    · cases h
    · cases h
      push Not at h8
      have : toBE 8 (fromBE (b.drop (b.length - 8))) = b.drop (b.length - 8) := by
        have := toBE_fromBE (b.drop (b.length - 8))
        rwa [h8] at this
      show b = b.take (b.length - 8) ++ toBE 8 (fromBE (b.drop (b.length - 8)))
      rw [this, List.take_append_drop]

theorem otp_roundtrip (P : Prims) {PkPair SigPair : Bytes → Bytes → Prop} (hP : P.Correct PkPair SigPair)
    (key pk sk nonce ad dict pad input : Bytes) (hk : PkPair pk sk) (hn : 12 ≤ nonce.length) (hd : dict.length = 32)
    (hp : 32 ≤ pad.length) (hs1 : (P.aesEnc key (nonce.take 12) ad input).length < 2 ^ 64)
    (hs2 : (P.pkeEnc pk dict nonce).length < 2 ^ 64) :
    ∃ c, otpEncrypt P key pk nonce ad dict pad input = .ok c ∧ otpDecrypt P key sk nonce ad c = .ok input := by
  have hcn : cipherNonce nonce = .ok (nonce.take 12) := by unfold cipherNonce; rw [if_neg (by omega)]
  unfold otpEncrypt
  rw [hcn]
  simp only [Res.bind]
  refine ⟨_, rfl, ?_⟩
  generalize hct : P.aesEnc key (nonce.take 12) ad input = ct at hs1
  generalize he : P.pkeEnc pk dict nonce = e at hs2
  obtain ⟨u, hu1, hu2⟩ := descramble_scramble dict pad ct hp
  have hsl : ct.length ≤ (scramble dict pad ct).length := by
    have : (scramble dict pad ct).length = (if ct.length % block ≠ 0 ∨ ct = [] then ct ++ pad.take (block - ct.length % block) else ct).length := by
      unfold scramble; simp [shiftAll]
    rw [this]; split <;> simp
  generalize scramble dict pad ct = sc at hu1 hsl
  generalize hbody : sc ++ toBE 8 ct.length ++ e ++ toBE 8 e.length = body
  have h32 : (body ++ P.sha body).length - 32 = body.length := by simp [hP.sha]
  unfold otpDecrypt
  simp only [h32, List.take_left' (l₁ := body) (l₂ := P.sha body) rfl, List.drop_left' (l₁ := body) (l₂ := P.sha body) rfl]
  rw [if_neg (by simp)]
  rw [← hbody, decodeLength_append _ _ hs2 (by simp; omega)]
  simp only [Res.bind]
  have hl2 : (sc ++ toBE 8 ct.length ++ e).length - e.length = (sc ++ toBE 8 ct.length).length := by
    simp; omega
  rw [hl2, List.drop_left' rfl, List.take_left' rfl, ← he, hP.pke _ _ _ _ hk]
  simp only [Res.ofOption]
  rw [if_neg (by omega), decodeLength_append _ _ hs1 (by omega)]
  simp only
  rw [List.take_of_length_le (by omega : dict.length ≤ 32), hu1]
  simp only [hcn, hu2]
  rw [← hct, hP.aes]

/-- **C65.** For all plaintexts, headers, nonces, dictionaries, paddings and signing randomness: what one module encrypts, the
matching module decrypts to exactly the plaintext. -/
theorem C65_roundtrip (P : Prims) {PkPair SigPair : Bytes → Bytes → Prop} (hP : P.Correct PkPair SigPair) (A B : Module)
    (hM : Matching PkPair SigPair A B) (nonce ad dict pad : Bytes) (rnd : Nat) (input : Bytes)
    (hn : 12 ≤ nonce.length) (hd : dict.length = 32) (hp : 32 ≤ pad.length)
    (hs1 : ∀ k n ad, (P.aesEnc k n ad input).length < 2 ^ 64) (hs2 : ∀ pk, (P.pkeEnc pk dict nonce).length < 2 ^ 64)
    (hs3 : ∀ m, (P.sign A.sigSk m rnd).length < 2 ^ 64) :
    ∃ ct, encrypt P A nonce ad dict pad rnd input = .ok ct ∧ decrypt P B nonce ad ct = .ok input := by
  obtain ⟨pk, sk, h1, h2, h3⟩ := hM.pke
  obtain ⟨spk, h4, h5⟩ := hM.sig
  obtain ⟨c, hc1, hc2⟩ := otp_roundtrip P hP A.keyLocal pk sk nonce ad dict pad input h3 hn hd hp (hs1 _ _ _) (hs2 _)
  unfold encrypt
  rw [h1]
  simp only [Res.unwrap, Res.bind, hc1]
  refine ⟨_, rfl, ?_⟩
  unfold decrypt
  rw [h4, h2]
  simp only [Res.unwrap, Res.bind]
  generalize hsig : P.sign A.sigSk (shaWithAd P ad c) rnd = sig
  have hsl : sig.length < 2 ^ 64 := by rw [← hsig]; exact hs3 _
  rw [decodeLength_append _ _ hsl (by simp; omega)]
  simp only
  have hl : (c ++ sig).length - sig.length = c.length := by simp
  rw [if_neg (by simp), hl, List.take_left' rfl, List.drop_left' rfl]
  have : P.verify spk (shaWithAd P ad c) sig = true := by rw [← hsig]; exact hP.sig _ _ _ _ h5
  rw [if_pos this, ← hM.key, hc2]

theorem otpDecrypt_no_panic (P : Prims) (key sk nonce ad input : Bytes) (hn : 12 ≤ nonce.length) :
    otpDecrypt P key sk nonce ad input ≠ .panic ∧
    ∀ m, otpDecrypt P key sk nonce ad input = .ok m → ∃ ct, P.aesDec key (nonce.take 12) ad ct = some m := by
  have hcn : cipherNonce nonce = .ok (nonce.take 12) := by unfold cipherNonce; rw [if_neg (by omega)]
  have hdl : ∀ b, decodeLength b ≠ .panic := by
    intro b; unfold decodeLength; simp only; split
    · simp
    · split <;> simp
  unfold otpDecrypt
  simp only [hcn]
  split
  · simp
  · cases h1 : decodeLength (input.take (input.length - 32)) with
    | err => simp [Res.bind]
    | panic => exact absurd h1 (hdl _)
    | ok r =>
      simp only [Res.bind]
      cases h2 : P.pkeDec sk (r.2.drop (r.2.length - r.1)) with
      | none => simp [Res.ofOption]
      | some d =>
        simp only [Res.ofOption]
        split
        · simp
        · cases h3 : decodeLength (r.2.take (r.2.length - r.1)) with
          | err => simp
          | panic => exact absurd h3 (hdl _)
          | ok q =>
            simp only
            cases h4 : descramble (d.take 32) q.2 with
            | err => simp
            | panic => unfold descramble at h4; split at h4 <;> simp at h4
            | ok u =>
              simp only
              cases h5 : P.aesDec key (nonce.take 12) ad (u.take q.1) with
              | none => simp
              | some m =>
                refine ⟨by simp, fun m' hm' => ⟨u.take q.1, ?_⟩⟩
                cases hm'; exact h5

/-- **C66.** A module that has its peer's keys never panics on any input, and whatever it accepts ends in a valid signature of
the peer over the associated data and everything before it, and passes AES-GCM under the peer's key. -/
theorem C66_hostile_input (P : Prims) (B : Module) (spk sk : Bytes) (h1 : B.remoteSigPk = some spk)
    (h2 : B.secretKey = some sk) (nonce ad input : Bytes) (hn : 12 ≤ nonce.length) :
    decrypt P B nonce ad input ≠ .panic ∧
    ∀ m, decrypt P B nonce ad input = .ok m →
      ∃ data sig, input = data ++ sig ++ toBE 8 sig.length ∧ P.verify spk (P.sha (ad ++ data)) sig = true ∧
        ∃ ct, P.aesDec B.keyRemote (nonce.take 12) ad ct = some m := by
  unfold decrypt
  rw [h1, h2]
  simp only [Res.unwrap, Res.bind]
  cases h3 : decodeLength input with
  | err => simp
  | panic =>
    exfalso
    unfold decodeLength at h3
    simp only at h3
    split at h3
    · cases h3
    · split at h3 <;> cases h3
  | ok r =>
    simp only
    split
    · simp
    · rename_i hle
      split
      · rename_i hv
        obtain ⟨hnp, hok⟩ := otpDecrypt_no_panic P B.keyRemote sk nonce ad (r.2.take (r.2.length - r.1)) hn
        refine ⟨hnp, fun m hm => ⟨_, _, ?_, hv, hok m hm⟩⟩
        have := decodeLength_ok h3
        rw [List.take_append_drop]
        have hl : (r.2.drop (r.2.length - r.1)).length = r.1 := by rw [List.length_drop]; omega
        rw [hl]; exact this
      · simp

/-! ### The hypotheses are met -/

/-- Toy primitives: authentication by appending the key and a fixed tag. -/
def toy : Prims where
  aesEnc k _ _ pt := k ++ pt
  aesDec k _ _ ct := if ct.take k.length = k then some (ct.drop k.length) else none
  pkeEnc pk m _ := pk ++ m
  pkeDec sk ct := if ct.take sk.length = sk then some (ct.drop sk.length) else none
  sha b := List.replicate 32 (UInt8.ofNat b.length)
  sign ssk m _ := ssk ++ m
  verify spk m s := s == spk ++ m

theorem toy_correct : toy.Correct Eq Eq where
  aes := by intro k n ad pt; simp [toy]
  pke := by rintro pk sk m n rfl; simp [toy]
  sha := by simp [toy]
  sig := by rintro spk ssk m r rfl; simp [toy]

def toyA : Module := ⟨[1], [2], some [3], some [4], [5], some [6]⟩
def toyB : Module := ⟨[2], [1], some [4], some [3], [6], some [5]⟩
theorem toy_matching : Matching Eq Eq toyA toyB := ⟨rfl, ⟨_, _, rfl, rfl, rfl⟩, ⟨_, rfl, rfl⟩⟩

def toyDict : Bytes := (List.range 32).map UInt8.ofNat
def toyPad : Bytes := List.replicate 32 7

/-- A concrete exchange, and refusal of a tampered packet. -/
example : (encrypt toy toyA (List.replicate 12 0) [9] toyDict toyPad 0 [10, 20, 30]).bind
      (decrypt toy toyB (List.replicate 12 0) [9]) = .ok [10, 20, 30] ∧
    (encrypt toy toyA (List.replicate 12 0) [9] toyDict toyPad 0 [10, 20, 30]).bind
      (fun c => decrypt toy toyB (List.replicate 12 0) [9, 9] c) = .err := by decide +kernel

/-- A module whose peer's signature key is missing panics. -/
example : decrypt toy { toyB with remoteSigPk := none } (List.replicate 12 0) [] [] = .panic := by decide

end Verif.Hybrid

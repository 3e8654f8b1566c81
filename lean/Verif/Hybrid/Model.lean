import Verif.Common.Bytes
import Verif.Common.Res
/-
Model of the post-quantum hybrid encryption module.
Sources: /repo/citadel_pqcrypto/src/encryption.rs lines 146-429 (`KyberModule` and helpers) and
/repo/citadel_pqcrypto/src/wire.rs lines 80-152 (`ScramCryptDictionary<32>`).

AES-GCM, the lattice public-key encryption, SHA3-256 and the signature scheme are parameters. `usize` has 64 bits.
Random choices (dictionary, padding, signing randomness) are arguments. Buffers can always grow. Serialising the dictionary
with bincode gives its 32 bytes; deserialising takes the first 32 bytes and fails on fewer.
-/
namespace Verif.Hybrid
open Verif

structure Prims where
  aesEnc : (key nonce ad pt : Bytes) → Bytes
  aesDec : (key nonce ad ct : Bytes) → Option Bytes
  pkeEnc : (pk msg nonce : Bytes) → Bytes
  pkeDec : (sk ct : Bytes) → Option Bytes
  sha : Bytes → Bytes
  sign : (ssk msg : Bytes) → (rnd : Nat) → Bytes
  verify : (spk msg sig : Bytes) → Bool

/-- `BLOCK_SIZE` used by the module. -/
def block : Nat := 32

/-- `swap_in_place` on every chunk, wire.rs lines 110-112, 128-130, 135-152: byte `j` of a chunk is shifted by entry `j`. -/
def shiftAll (dict : Bytes) (f : UInt8 → UInt8 → UInt8) (buf : Bytes) : Bytes :=
  buf.mapIdx fun j b => f b (dict.getD (j % block) 0)

/-- `scramble_in_place`, wire.rs lines 100-115; `pad` are the random bytes drawn. -/
def scramble (dict pad buf : Bytes) : Bytes :=
  let buf := if buf.length % block ≠ 0 ∨ buf = [] then buf ++ pad.take (block - buf.length % block) else buf
  shiftAll dict (· + ·) buf

/-- `descramble_in_place`, lines 117-133. -/
def descramble (dict buf : Bytes) : Res Bytes :=
  if buf.length % block ≠ 0 then .err else .ok (shiftAll dict (· - ·) buf)

/-- `decode_length`, encryption.rs lines 310-337: the length read and the shortened buffer. -/
def decodeLength (input : Bytes) : Res (Nat × Bytes) :=
  let start := input.length - 8
  if (input.drop start).length ≠ 8 then .err
  else
    let n := fromBE (input.drop start)
    if n > input.length then .err else .ok (n, input.take start)

/-- `&nonce[..12]`. -/
def cipherNonce (nonce : Bytes) : Res Bytes := if nonce.length < 12 then .panic else .ok (nonce.take 12)

/-- `core_kyber_otp_encrypt`, lines 339-375. -/
def otpEncrypt (P : Prims) (key pk nonce ad dict pad input : Bytes) : Res Bytes :=
  (cipherNonce nonce).bind fun n =>
    let ct := P.aesEnc key n ad input
    let s := scramble dict pad ct ++ toBE 8 ct.length
    let e := P.pkeEnc pk dict nonce
    let body := s ++ e ++ toBE 8 e.length
    .ok (body ++ P.sha body)

/-- `core_kyber_otp_decrypt`, lines 377-414. -/
def otpDecrypt (P : Prims) (key sk nonce ad input : Bytes) : Res Bytes :=
  let c := input.take (input.length - 32)
  if P.sha c ≠ input.drop (input.length - 32) then .err
  else
    (decodeLength c).bind fun r =>
      let e := r.2.drop (r.2.length - r.1)
      (Res.ofOption (P.pkeDec sk e)).bind fun d =>
        if d.length < 32 then .err
        else
          (decodeLength (r.2.take (r.2.length - r.1))).bind fun q =>
            (descramble (d.take 32) q.2).bind fun u =>
              (cipherNonce nonce).bind fun n => Res.ofOption (P.aesDec key n ad (u.take q.1))

/-- `KyberModule`, lines 153-161 (with the fields used of `PostQuantumMetaKex` and `PostQuantumMetaSig`). -/
structure Module where
  keyLocal : Bytes
  keyRemote : Bytes
  remotePk : Option Bytes
  secretKey : Option Bytes
  sigSk : Bytes
  remoteSigPk : Option Bytes
deriving DecidableEq, Repr

/-- `sha3_256_with_ad`, lines 420-429. -/
def shaWithAd (P : Prims) (ad input : Bytes) : Bytes := P.sha (ad ++ input)

/-- `KyberModule::encrypt_in_place`, lines 164-206. -/
def encrypt (P : Prims) (M : Module) (nonce ad dict pad : Bytes) (rnd : Nat) (input : Bytes) : Res Bytes :=
  (Res.unwrap M.remotePk).bind fun pk =>
    (otpEncrypt P M.keyLocal pk nonce ad dict pad input).bind fun c =>
      let sig := P.sign M.sigSk (shaWithAd P ad c) rnd
      .ok (c ++ sig ++ toBE 8 sig.length)

/-- `KyberModule::decrypt_in_place`, lines 208-253. -/
def decrypt (P : Prims) (M : Module) (nonce ad input : Bytes) : Res Bytes :=
  (Res.unwrap M.remoteSigPk).bind fun spk =>
    (Res.unwrap M.secretKey).bind fun sk =>
      (decodeLength input).bind fun r =>
        if r.1 > r.2.length then .err
        else
          let split := r.2.length - r.1
          let data := r.2.take split
          let sig := r.2.drop split
          if P.verify spk (shaWithAd P ad data) sig then otpDecrypt P M.keyRemote sk nonce ad data else .err

end Verif.Hybrid

import Verif.Common.Bytes
/-
Models of small pure functions.
Sources: /repo/citadel_types/src/crypto/mod.rs lines 85-90, 338-395, 471-475, 518-523, 561-605;
/repo/citadel_types/src/utils/mod.rs lines 46-87; /repo/citadel_user/src/credentials.rs lines 86-187.
-/
namespace Verif.Types
open Verif

/-! ### Crypto parameters -/

/-- `EncryptionAlgorithm`, crypto/mod.rs lines 389-395. -/
inductive EncryptionAlgorithm where
  | aesGcm256 | chaCha20Poly1305 | mlKemHybrid | ascon80pq
deriving DecidableEq, Repr

/-- `KemAlgorithm`, lines 471-475. -/
inductive KemAlgorithm where
  | mlKem
deriving DecidableEq, Repr

/-- `SigAlgorithm`, lines 518-523. -/
inductive SigAlgorithm where
  | none | mlDsa65 | fnDsa512
deriving DecidableEq, Repr

/-- `PrimitiveEnum::to_primitive` of each (the discriminants). -/
def EncryptionAlgorithm.toPrimitive : EncryptionAlgorithm → Nat
  | .aesGcm256 => 0 | .chaCha20Poly1305 => 1 | .mlKemHybrid => 2 | .ascon80pq => 3
def KemAlgorithm.toPrimitive : KemAlgorithm → Nat
  | .mlKem => 0
def SigAlgorithm.toPrimitive : SigAlgorithm → Nat
  | .none => 0 | .mlDsa65 => 1 | .fnDsa512 => 2

/-- `PrimitiveEnum::from_primitive` of each. -/
def EncryptionAlgorithm.fromPrimitive : Nat → Option EncryptionAlgorithm
  | 0 => some .aesGcm256 | 1 => some .chaCha20Poly1305 | 2 => some .mlKemHybrid | 3 => some .ascon80pq | _ => .none
def KemAlgorithm.fromPrimitive : Nat → Option KemAlgorithm
  | 0 => some .mlKem | _ => .none
def SigAlgorithm.fromPrimitive : Nat → Option SigAlgorithm
  | 0 => some .none | 1 => some .mlDsa65 | 2 => some .fnDsa512 | _ => Option.none

/-- `CryptoParameters`, lines 341-349. -/
structure CryptoParameters where
  enc : EncryptionAlgorithm
  kem : KemAlgorithm
  sig : SigAlgorithm
deriving DecidableEq, Repr

/-- `From<CryptoParameters> for u8`, lines 85-90: `packed_struct` with msb0 bits 0..=3, 4..=5, 6..=7. -/
def pack (p : CryptoParameters) : BitVec 8 :=
  BitVec.ofNat 8 (p.enc.toPrimitive * 16 + p.kem.toPrimitive * 4 + p.sig.toPrimitive)

/-- `CryptoParameters::unpack` (derived by `packed_struct`). -/
def unpack (b : BitVec 8) : Option CryptoParameters := do
  let e ← EncryptionAlgorithm.fromPrimitive (b.toNat / 16)
  let k ← KemAlgorithm.fromPrimitive (b.toNat / 4 % 4)
  let s ← SigAlgorithm.fromPrimitive (b.toNat % 4)
  pure ⟨e, k, s⟩

/-- `validate_crypto_params`, utils/mod.rs lines 67-87 (`true` = `Ok`). -/
def validateCryptoParams (p : CryptoParameters) : Bool :=
  let usesMlKem := p.kem == .mlKem
  if p.enc == .mlKemHybrid && !usesMlKem then false
  else if p.enc == .mlKemHybrid && p.sig == .none then false
  else true

/-- `TryFrom<u8> for CryptoParameters`, lines 360-370. -/
def tryFromByte (b : BitVec 8) : Option CryptoParameters := do
  let p ← unpack b
  if validateCryptoParams p then pure p else .none

/-- `SecurityLevel`, lines 561-569. -/
inductive SecurityLevel where
  | standard | reinforced | high | ultra | extreme | custom (v : BitVec 8)
deriving DecidableEq, Repr

/-- `SecurityLevel::value`, lines 577-586. -/
def SecurityLevel.value : SecurityLevel → BitVec 8
  | .standard => 0 | .reinforced => 1 | .high => 2 | .ultra => 3 | .extreme => 4 | .custom v => v

/-- `From<u8> for SecurityLevel`, lines 594-605. -/
def SecurityLevel.ofByte (v : BitVec 8) : SecurityLevel :=
  if v = 0 then .standard else if v = 1 then .reinforced else if v = 2 then .high
  else if v = 3 then .ultra else if v = 4 then .extreme else .custom v

/-! ### Constant-time comparison -/

/-- The loop body's effect on `count`, utils/mod.rs lines 53-62. -/
def compareStep (this other : Bytes) (count idx : Nat) : Nat :=
  match this[idx]?, other[idx]? with
  | some a, some b => count + (if a == b then 1 else 0)
  | _, _ => count

/-- `const_time_compare`, utils/mod.rs lines 46-65. -/
def constTimeCompare (this other : Bytes) : Bool :=
  let count := (List.range this.length).foldl (compareStep this other) 0
  count == this.length && count == other.length

/-! ### Credentials -/

/-- `CredentialRequirements`, credentials.rs lines 88-101 (`u8` fields). -/
structure CredentialRequirements where
  minPassword : Nat
  maxPassword : Nat
  minUsername : Nat
  maxUsername : Nat
  minName : Nat
  maxName : Nat

inductive CredentialError where
  | usernameLength | usernameSpaces | passwordLength | passwordSpaces | fullNameLength
deriving DecidableEq, Repr

/-- `str::contains(' ')`. -/
def containsSpace (s : String) : Bool := s.toList.any (fun c => c == ' ')

/-- The `if let Some(password)` block of `check`, lines 156-173. -/
def checkPassword (r : CredentialRequirements) : Option String → Except CredentialError Unit
  | none => .ok ()
  | some p =>
    if p.utf8ByteSize < r.minPassword || p.utf8ByteSize > r.maxPassword then .error .passwordLength
    else if containsSpace p then .error .passwordSpaces
    else .ok ()

/-- `CredentialRequirements::check`, lines 131-187. `str::len` is the number of UTF-8 bytes. -/
def check (r : CredentialRequirements) (username : String) (password : Option String) (fullName : String) :
    Except CredentialError Unit :=
  if username.utf8ByteSize < r.minUsername || username.utf8ByteSize > r.maxUsername then .error .usernameLength
  else if containsSpace username then .error .usernameSpaces
  else
    match checkPassword r password with
    | .error e => .error e
    | .ok _ =>
      if fullName.utf8ByteSize < r.minName || fullName.utf8ByteSize > r.maxName then .error .fullNameLength
      else .ok ()

/-- `CredentialRequirements::default` with the constants of lines 190-206. -/
def defaultRequirements : CredentialRequirements :=
  { minPassword := 7, maxPassword := 17, minUsername := 3, maxUsername := 37, minName := 2, maxName := 77 }

end Verif.Types

import Verif.Hybrid.Model
/-
Model of the post-quantum container: key exchange, key chain, directional keys, local encryption.
Sources: /repo/citadel_pqcrypto/src/lib.rs lines 336-620, 658-711, 828-850, 934-1200 (container and `PostQuantumMeta`),
/repo/citadel_pqcrypto/src/export.rs lines 142-260 (`keys_to_aead_store`),
/repo/citadel_pqcrypto/src/constructor_opts.rs lines 108-150 (`RecursiveChain`),
/repo/citadel_types/src/utils/mod.rs lines 67-86 (`validate_crypto_params`),
/repo/citadel_crypt/src/ratchets/stacked/ratchet.rs lines 118-144 (`get_next_constructor_opts`).

KEM, hashes, AEADs, public-key encryption and signatures are parameters; random choices are arguments. One signature scheme
(`sig : Bool` tells whether it is used) and one KEM. Nonce slicing of the symmetric modules is part of `symEnc`/`symDec`.
The anti-replay counters are the subject of `Verif.Replay` and are left out.
-/
namespace Verif.KeyStore
open Verif Verif.Hybrid

inductive Alg where
  | aes | chacha | ascon | hybrid
deriving DecidableEq, Repr

inductive Node where
  | alice | bob
deriving DecidableEq, Repr

structure KPrims extends Prims where
  /-- SHA3-512, split at byte 32. -/
  h512 : Bytes → Bytes × Bytes
  kemKeygen : Nat → Bytes × Bytes
  encaps : (pk : Bytes) → (rnd : Nat) → Option (Bytes × Bytes)
  decaps : (ct sk : Bytes) → Option Bytes
  sigKeygen : Nat → Bytes × Bytes
  symEnc : Alg → (key nonce ad pt : Bytes) → Bytes
  symDec : Alg → (key nonce ad ct : Bytes) → Option Bytes

/-- `CryptoParameters` (the fields that matter here). -/
structure Params where
  alg : Alg
  sig : Bool
deriving DecidableEq, Repr

/-- `RecursiveChain`. -/
structure Chain where
  chain : Bytes
  alice : Bytes
  bob : Bytes
deriving DecidableEq, Repr

/-- `PostQuantumMetaKex`, lines 868-881. -/
structure Kex where
  pk : Bytes
  sk : Option Bytes
  ct : Option Bytes
  ss : Option Bytes
  remotePk : Option Bytes
deriving DecidableEq, Repr

/-- `PostQuantumMetaSig`, lines 883-890. -/
structure Sig where
  spk : Bytes
  ssk : Bytes
  remoteSpk : Option Bytes
deriving DecidableEq, Repr

/-- `PostQuantumContainer`: `sig = none` is `PureSymmetricEncryption`, `some` is `MixedAsymmetric`; `keys` are
`alice_key` and `bob_key` of the key store. -/
structure Container where
  params : Params
  node : Node
  kex : Kex
  sig : Option Sig
  chain : Option Chain
  keys : Option (Bytes × Bytes)
deriving DecidableEq, Repr

/-- `AliceToBobTransferParameters`. -/
inductive A2B where
  | mixed (pk spk signature : Bytes)
  | pure (pk : Bytes)
deriving DecidableEq, Repr

/-- `BobToAliceTransferParameters`. -/
inductive B2A where
  | mixed (signature ct spk pk : Bytes)
  | pure (ct pk : Bytes)
deriving DecidableEq, Repr

/-- `validate_crypto_params`. -/
def validParams (p : Params) : Bool := !(decide (p.alg = .hybrid) && !p.sig)

/-- The random choices of one key exchange. -/
structure Rnd where
  kemA : Nat
  sigA : Nat
  signA : Nat
  kemB : Nat
  sigB : Nat
  signB : Nat
  encaps : Nat

/-- `new_alice`, lines 336-354 and 959-1003. -/
def newAlice (P : KPrims) (params : Params) (prev : Option Chain) (r : Rnd) : Res Container :=
  if validParams params then
    let kp := P.kemKeygen r.kemA
    let skp := P.sigKeygen r.sigA
    .ok { params := params, node := .alice, kex := { pk := kp.1, sk := some kp.2, ct := none, ss := none, remotePk := none }
          sig := if params.sig then some { spk := skp.1, ssk := skp.2, remoteSpk := none } else none
          chain := prev, keys := none }
  else .err

/-- `generate_alice_to_bob_transfer`, lines 1129-1161. -/
def transferA (P : KPrims) (c : Container) (r : Rnd) : A2B :=
  match c.sig with
  | some s => .mixed c.kex.pk s.spk (P.sign s.ssk c.kex.pk r.signA)
  | none => .pure c.kex.pk

def xor (a b : Bytes) : Bytes := List.zipWith (· ^^^ ·) a b

/-- `RecursiveChain::new`. -/
def newChain (chain alice bob : Bytes) : Res Chain :=
  if chain.length ≠ 32 ∨ alice.length ≠ 32 ∨ bob.length ≠ 32 then .err else .ok ⟨chain, alice, bob⟩

/-- The key schedule in `generate_recursive_keystore`, lines 416-522. -/
def schedule (P : KPrims) (prev : Option Chain) (ss : Bytes) (psks : List Bytes) : Res Chain :=
  match prev with
  | some p =>
    let t := P.h512 (p.chain ++ ss ++ psks.flatten)
    let a := P.sha (xor p.alice t.1)
    let b := P.sha (xor p.bob t.2)
    newChain (P.sha (xor a b)) a b
  | none =>
    let t := P.h512 (ss ++ psks.flatten)
    newChain (P.sha (xor t.1 t.2)) t.1 t.2

/-- `generate_recursive_keystore`, lines 407-538: the signature state is unwrapped when the algorithm is the hybrid one
(export.rs `sig.cloned().unwrap()`). -/
def keystore (P : KPrims) (params : Params) (sig : Option Sig) (prev : Option Chain) (ss : Bytes) (psks : List Bytes) :
    Res (Chain × (Bytes × Bytes)) :=
  (schedule P prev ss psks).bind fun c =>
    if params.alg = .hybrid ∧ sig = none then .panic else .ok (c, (c.alice, c.bob))

/-- `new_bob`, lines 366-404 and 1005-1075. -/
def newBob (P : KPrims) (params : Params) (prev : Option Chain) (tx : A2B) (psks : List Bytes) (r : Rnd) : Res Container :=
  if validParams params then
    let pkA := match tx with | .mixed pk _ _ => pk | .pure pk => pk
    let kp := P.kemKeygen r.kemB
    (Res.ofOption (P.encaps pkA r.encaps)).bind fun e =>
      let sig : Res (Option Sig) := match tx with
        | .mixed pk spk signature =>
          if P.verify spk pk signature then
            .ok (some { spk := (P.sigKeygen r.sigB).1, ssk := (P.sigKeygen r.sigB).2, remoteSpk := some spk })
          else .err
        | .pure _ => .ok none
      sig.bind fun sig =>
        (keystore P params sig prev e.2 psks).bind fun k =>
          .ok { params := params, node := .bob
                kex := { pk := kp.1, sk := some kp.2, ct := some e.1, ss := some e.2, remotePk := some pkA }
                sig := sig, chain := some k.1, keys := some k.2 }
  else .err

/-- `generate_bob_to_alice_transfer`, lines 1163-1190. -/
def transferB (P : KPrims) (c : Container) (r : Rnd) : Res B2A :=
  (Res.ofOption c.kex.ct).bind fun ct =>
    match c.sig with
    | none => .ok (.pure ct c.kex.pk)
    | some s => .ok (.mixed (P.sign s.ssk ct r.signB) ct s.spk c.kex.pk)

/-- `alice_on_receive_ciphertext`, lines 591-600 and 1077-1127, with `load_symmetric_keys`, lines 567-589. -/
def aliceReceive (P : KPrims) (c : Container) (tx : B2A) (psks : List Bytes) : Res Container :=
  let ct : Res Bytes := match tx with
    | .pure ct _ => .ok ct
    | .mixed signature ct spk _ =>
      if c.sig.isSome then (if P.verify spk ct signature then .ok ct else .err) else .err
  ct.bind fun ct =>
    (Res.ofOption c.kex.sk).bind fun sk =>
      (Res.ofOption (P.decaps ct sk)).bind fun ss =>
        let pkB := match tx with | .mixed _ _ _ pk => pk | .pure _ pk => pk
        let sig := match tx with
          | .mixed _ _ spk _ => c.sig.map fun s => { s with remoteSpk := some spk }
          | .pure _ _ => c.sig
        (keystore P c.params sig c.chain ss psks).bind fun k =>
          .ok { c with kex := { c.kex with ss := some ss, ct := some ct, remotePk := some pkB }, sig := sig
                       chain := some k.1, keys := some k.2 }

/-- The key of a node's own direction and of the other direction. -/
def ownKey (c : Container) (k : Bytes × Bytes) : Bytes := match c.node with | .alice => k.1 | .bob => k.2
def otherKey (c : Container) (k : Bytes × Bytes) : Bytes := match c.node with | .alice => k.2 | .bob => k.1

/-- The `KyberModule` of a container, export.rs lines 190-260. -/
def module (c : Container) (k : Bytes × Bytes) (s : Sig) : Module :=
  { keyLocal := ownKey c k, keyRemote := otherKey c k, remotePk := c.kex.remotePk, secretKey := c.kex.sk
    sigSk := s.ssk, remoteSigPk := s.remoteSpk }

/-- Randomness of one encryption. -/
structure EncRnd where
  dict : Bytes
  pad : Bytes
  sign : Nat

/-- `encrypt` and `protect_packet_in_place`'s use of `get_encryption_key` (lines 540-545, 658-675). -/
def encrypt (P : KPrims) (c : Container) (nonce ad : Bytes) (r : EncRnd) (input : Bytes) : Res Bytes :=
  (Res.ofOption c.keys).bind fun k =>
    if c.params.alg = .hybrid then
      (Res.unwrap c.sig).bind fun s => Hybrid.encrypt P.toPrims (module c k s) nonce ad r.dict r.pad r.sign input
    else .ok (P.symEnc c.params.alg (ownKey c k) nonce ad input)

/-- `decrypt` and `get_decryption_key` (lines 547-559, 828-846). -/
def decrypt (P : KPrims) (c : Container) (nonce ad input : Bytes) : Res Bytes :=
  (Res.ofOption c.keys).bind fun k =>
    if c.params.alg = .hybrid then
      (Res.unwrap c.sig).bind fun s => Hybrid.decrypt P.toPrims (module c k s) nonce ad input
    else Res.ofOption (P.symDec c.params.alg (otherKey c k) nonce ad input)

/-- `local_encrypt`, lines 677-692, with encryption.rs lines 255-265 (hybrid: the module's own AES key) and
lib.rs lines 1394-1403 (others: ordinary encryption). -/
def localEncrypt (P : KPrims) (c : Container) (nonce input : Bytes) : Res Bytes :=
  (Res.ofOption c.keys).bind fun k =>
    .ok (P.symEnc (if c.params.alg = .hybrid then .aes else c.params.alg) (ownKey c k) nonce [] input)

/-- `local_decrypt`, lines 696-711: also with the encryption key. -/
def localDecrypt (P : KPrims) (c : Container) (nonce input : Bytes) : Res Bytes :=
  (Res.ofOption c.keys).bind fun k =>
    Res.ofOption (P.symDec (if c.params.alg = .hybrid then .aes else c.params.alg) (ownKey c k) nonce [] input)

/-- `PreSharedKey::add_password`, citadel_types/src/crypto/mod.rs lines 741-750: each password is hashed. -/
def psksOf (P : KPrims) (passwords : List Bytes) : List Bytes := passwords.map P.sha

/-! ### Stacked ratchets -/

/-- One layer of an honest exchange, from both sides' previous chains: Alice's and Bob's container. -/
def exchange (P : KPrims) (pA pB : Params) (prevA prevB : Option Chain) (psksA psksB : List Bytes) (r : Rnd) :
    Res (Container × Container) :=
  (newAlice P pA prevA r).bind fun a =>
    (newBob P pB prevB (transferA P a r) psksB r).bind fun b =>
      (transferB P b r).bind fun tb =>
        (aliceReceive P a tb psksA).bind fun a' => .ok (a', b)

def chainBytes (c : Container) : Bytes := match c.chain with | some ch => ch.chain | none => []

/-- `get_next_constructor_opts`, stacked/ratchet.rs lines 118-144: parameters and chain for the next version, all layers
sharing the hash of all chains. A layer without chain panics (`unwrap`). -/
def nextOpts (P : KPrims) (cs : List Container) : Res (List (Params × Option Chain)) :=
  if cs.all (fun c => c.chain.isSome) then
    let cat := (cs.map chainBytes).flatten
    .ok (cs.map fun c => (c.params, c.chain.map fun ch => { ch with chain := P.sha cat }))
  else .panic

/-- All layers of an exchange. -/
def exchangeAll (P : KPrims) (psksA psksB : List Bytes) :
    List (Params × Option Chain) → List (Params × Option Chain) → List Rnd → Res (List Container × List Container)
  | a :: as, b :: bs, r :: rs =>
    (exchange P a.1 b.1 a.2 b.2 psksA psksB r).bind fun c =>
      (exchangeAll P psksA psksB as bs rs).bind fun cs => .ok (c.1 :: cs.1, c.2 :: cs.2)
  | _, _, _ => .ok ([], [])

/-- One re-key between two endpoints `x` and `y`; `flip` says that `y` plays Alice. -/
structure Round where
  flip : Bool
  rnds : List Rnd

def rekey (P : KPrims) (psksX psksY : List Bytes) (s : List Container × List Container) (rd : Round) :
    Res (List Container × List Container) :=
  (nextOpts P s.1).bind fun ox =>
    (nextOpts P s.2).bind fun oy =>
      if rd.flip then
        (exchangeAll P psksY psksX oy ox rd.rnds).bind fun c => .ok (c.2, c.1)
      else exchangeAll P psksX psksY ox oy rd.rnds

/-- First exchange with the given parameters per layer, then any number of re-keys. -/
def session (P : KPrims) (psksX psksY : List Bytes) (params : List Params) (rnds : List Rnd) :
    List Round → Res (List Container × List Container)
  | [] =>
    exchangeAll P psksX psksY (params.map fun p => (p, none)) (params.map fun p => (p, none)) rnds
  | rd :: rds => (session P psksX psksY params rnds rds).bind fun s => rekey P psksX psksY s rd

end Verif.KeyStore

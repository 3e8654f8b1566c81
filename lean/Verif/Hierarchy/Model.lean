import Verif.Sym.Term
/-
Model of the command-hierarchy encryption.

Sources: /repo/citadel_types/src/proto/mod.rs lines 272-318 (`ReadPolicy`, `CommandPath`),
/repo/citadel_treekem/src/hierarchy.rs lines 24-186 (`KdfKemTree`, `DheEnvelope`),
/repo/citadel_treekem/src/hierarchy_member.rs lines 17-116 (`HierarchyMember`).

Byte strings are values of a type `M`, the primitives are fields of `Prims`, so that the same functions run on any
correct primitives (for "who can open") and on symbolic terms (for "who cannot"). Randomness is an argument. bincode
encoding of envelopes is left out (an envelope is a structure; a received envelope is an arbitrary one); encoding of an
assignment is a primitive with the law that decoding inverts it. Errors are `none`. Nothing here can panic:
`other.0[..self.0.len()]` is guarded by the length test and `descendant.0[ancestor.0.len()..]` by `is_ancestor_of`.
-/
namespace Verif.Hierarchy

abbrev Path := List String

inductive Policy | superiorOnly | broadcastAudit
  deriving DecidableEq

structure Prims (M : Type) where
  /-- `blake3::keyed_hash(secret, segment)` -/
  khash : M → String → M
  /-- public half of `KdfKemTree::node_keypair(node_secret)`, lines 66-75 -/
  pub : M → M
  /-- public half of `node_keypair_from_path_secret(leaf_secret)` -/
  leafPub : M → M
  /-- `hpke_seal(pk, plaintext)` with its randomness -/
  hseal : M → M → Nat → M
  /-- `hpke_open(ct, sk)`, `sk` from `node_keypair(node_secret)` -/
  hopen : M → M → Option M
  /-- `hpke_open(ct, sk)`, `sk` from `node_keypair_from_path_secret(leaf_secret)` -/
  leafOpen : M → M → Option M
  /-- `sym_seal(key, nonce, plaintext)` -/
  sseal : M → M → M → M
  sopen : M → M → M → Option M
  /-- `CONTENT_NONCE` -/
  nonce0 : M
  /-- first 12 bytes of `derive_key("citadel-dhe-flat-nonce-v1", content_key)` -/
  flatNonce : M → M
  /-- the length test of `decrypt_body` -/
  isKey : M → Bool
  /-- bincode of a `HierarchyMember` -/
  encMember : Path → M → Policy → M
  decMember : M → Option (Path × M × Policy)

/-- Correctness of the primitives. -/
structure Lawful {M : Type} (P : Prims M) : Prop where
  hopen_hseal : ∀ s m r, P.hopen s (P.hseal (P.pub s) m r) = some m
  leafOpen_hseal : ∀ s m r, P.leafOpen s (P.hseal (P.leafPub s) m r) = some m
  sopen_sseal : ∀ k n m, P.sopen k n (P.sseal k n m) = some m
  dec_enc : ∀ p s pol, P.decMember (P.encMember p s pol) = some (p, s, pol)

variable {M : Type} (P : Prims M)

/-- `CommandPath::parse`: split at slashes, empty segments ignored. -/
def parse (s : String) : Path := (s.splitOn "/").filter (fun x => !x.isEmpty)

/-- `CommandPath::child`. -/
def child (p : Path) (seg : String) : Path := p ++ [seg]

/-- `CommandPath::is_ancestor_of`, lines 314-316. -/
def isAncestorOf (a b : Path) : Bool := decide (a.length ≤ b.length) && b.take a.length == a

/-- `KdfKemTree::derive_descendant_secret`, hierarchy.rs lines 45-63. -/
def deriveSecret (secret : M) (a d : Path) : Option M :=
  if isAncestorOf a d then some ((d.drop a.length).foldl P.khash secret) else none

structure Envelope (M : Type) where
  senderPath : Path
  body : M
  wrapHier : M
  wrapFlat : Option (M × M)

/-- `DheEnvelope::seal`, lines 105-146. `r` is the randomness of the encapsulation. -/
def sealEnv (senderPath : Path) (nodeSecret : M) (flat : Option M) (policy : Policy) (ck pt : M) (r : Nat) :
    Option (Envelope M) :=
  let body := P.sseal ck P.nonce0 pt
  let wrapHier := P.hseal (P.pub nodeSecret) ck r
  match policy with
  | .superiorOnly => some ⟨senderPath, body, wrapHier, none⟩
  | .broadcastAudit =>
    match flat with
    | none => none
    | some f =>
      let nonce := P.flatNonce ck
      some ⟨senderPath, body, wrapHier, some (nonce, P.sseal f nonce ck)⟩

/-- `decrypt_body`, lines 176-185. -/
def decryptBody (e : Envelope M) (k : M) : Option M := if P.isKey k then P.sopen k P.nonce0 e.body else none

/-- `open_as_superior`, lines 150-162. -/
def openAsSuperior (e : Envelope M) (myPath : Path) (mySecret : M) : Option M :=
  match deriveSecret P mySecret myPath e.senderPath with
  | none => none
  | some s => (P.hopen s e.wrapHier).bind (decryptBody P e)

/-- `open_as_member`, lines 165-172. -/
def openAsMember (e : Envelope M) (flat : M) : Option M :=
  match e.wrapFlat with
  | none => none
  | some (n, ct) => (P.sopen flat n ct).bind (decryptBody P e)

/-- `HierarchyMember`, lines 17-24. -/
structure Member (M : Type) where
  path : Path
  secret : M
  policy : Policy

/-- `HierarchyMember::root`. -/
def rootMember (s : M) (pol : Policy) : Member M := ⟨[], s, pol⟩

/-- `derive_descendant`, lines 38-46. -/
def Member.derive (m : Member M) (p : Path) : Option (Member M) :=
  (deriveSecret P m.secret m.path p).map fun s => ⟨p, s, m.policy⟩

/-- `seal_to`, lines 50-57. -/
def Member.sealTo (m : Member M) (leafPub : M) (r : Nat) : M := P.hseal leafPub (P.encMember m.path m.secret m.policy) r

/-- `open`, lines 61-68. -/
def openAssignment (ct leafSecret : M) : Option (Member M) :=
  ((P.leafOpen leafSecret ct).bind P.decMember).map fun (p, s, pol) => ⟨p, s, pol⟩

/-- `seal_message`, lines 72-89. -/
def Member.sealMessage (m : Member M) (flat : Option M) (ck pt : M) (r : Nat) : Option (Envelope M) :=
  sealEnv P m.path m.secret flat m.policy ck pt r

/-- `open_message`, lines 93-109. -/
def Member.openMessage (m : Member M) (flat : Option M) (e : Envelope M) : Option M :=
  if isAncestorOf m.path e.senderPath then openAsSuperior P e m.path m.secret
  else match flat with
    | some f => openAsMember P e f
    | none => none

/-! ### Symbolic primitives -/

open Verif.Sym

def encPath : Path → Term
  | [] => .lit ""
  | s :: p => .pair (.lit s) (encPath p)

def encPolicy : Policy → Term
  | .superiorOnly => .num 0
  | .broadcastAudit => .num 1

def seedOf (s : Term) : Term := .hash (.pair (.lit "sha3-512") (.pair s (.lit "citadel-dhe-kem-seed-v1")))
def leafSeedOf (s : Term) : Term := .hash (.pair (.lit "sha3-512") (.pair s (.lit "citadel-treekem-kem-seed-v1")))

def asymOpen (pk ct : Term) : Option Term :=
  match ct with
  | .aenc k m _ => if k = pk then some m else none
  | _ => none

def symOpen (key nonce ct : Term) : Option Term :=
  match ct with
  | .senc k n m => if k = key ∧ n = nonce then some m else none
  | _ => none

/-- Splits a list of segments off a term. -/
def decPath : Term → Option Path
  | .lit s => if s = "" then some [] else none
  | .pair (.lit s) p => (decPath p).map (s :: ·)
  | _ => none

def decMemberT : Term → Option (Path × Term × Policy)
  | .pair p (.pair s pol) =>
    (decPath p).bind fun p => if pol = .num 0 then some (p, s, .superiorOnly) else if pol = .num 1 then some (p, s, .broadcastAudit) else none
  | _ => none

def symPrims : Prims Term where
  khash s seg := .hash (.pair (.lit "blake3-keyed") (.pair s (.lit seg)))
  pub s := .pk (seedOf s)
  leafPub s := .pk (leafSeedOf s)
  hseal := .aenc
  hopen s ct := asymOpen (.pk (seedOf s)) ct
  leafOpen s ct := asymOpen (.pk (leafSeedOf s)) ct
  sseal := .senc
  sopen := symOpen
  nonce0 := .num 0
  flatNonce ck := .hash (.pair (.lit "citadel-dhe-flat-nonce-v1") ck)
  isKey _ := true
  encMember p s pol := .pair (encPath p) (.pair s (encPolicy pol))
  decMember := decMemberT

/-- What the relay sees of an envelope. -/
def Envelope.wire (e : Envelope Term) : List Term :=
  [encPath e.senderPath, e.body, e.wrapHier] ++ match e.wrapFlat with
    | none => []
    | some (n, c) => [n, c]

end Verif.Hierarchy

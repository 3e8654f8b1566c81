import Verif.TreeMath.Model
import Verif.Common.Res
/-
Model of the group key agreement (citadel_treekem).

Sources under /repo/citadel_treekem/src: tree/node.rs 1-60, tree/ratchet_tree.rs 1-125, path.rs 1-190, group.rs 1-275,
schedule.rs 1-62, application.rs 1-77, commit.rs, welcome.rs, keys.rs, crypto.rs 1-75.

Byte strings are values of a type `M`; the cryptographic primitives are fields of `Prims`, so the same functions run on
any correct primitives and on symbolic terms. Randomness of encapsulations is an argument.

Simplifications: `parent_hash`, `sig_public` and `signature` are left out (always zero or empty, never read); `epoch` and
`num_leaves` are natural numbers without their 64 and 32 bit limits, but all tree arithmetic is the overflow-checked
`u32` version; key generation from a seed always succeeds; `HashMap`s are functions. Tree indexing out of range and
overflows are panics. Functions that mutate `self` or `tree` before failing return the mutated value next to the
result.
-/
namespace Verif.TreeKem

open Verif.TreeMath

/-- `LeafNode`, node.rs 9-20. -/
structure LeafNode (M : Type) where
  cid : Nat
  pk : M
  index : Nat
  deriving DecidableEq

/-- `Node`, node.rs 24-41. -/
inductive Node (M : Type)
  | blank
  | leaf (l : LeafNode M)
  | parent (pk : M) (unmerged : List Nat)
  deriving DecidableEq

/-- `kem_public`, node.rs 50-56. -/
def Node.pk? {M : Type} : Node M → Option M
  | .blank => none
  | .leaf l => some l.pk
  | .parent pk _ => some pk

def Node.isBlank {M : Type} : Node M → Bool
  | .blank => true
  | _ => false

abbrev Tree (M : Type) := List (Node M)

/-- `UpdatePathNode`, path.rs 26-29. -/
structure UpdNode (M : Type) where
  pk : M
  cts : List M
  deriving DecidableEq

/-- `UpdatePath`, path.rs 33-40. -/
structure UpdatePath (M : Type) where
  leafIndex : Nat
  leafPk : M
  nodes : List (UpdNode M)
  deriving DecidableEq

/-- `Proposal`, commit.rs. The key package is its leaf. -/
inductive Proposal (M : Type)
  | add (leaf : LeafNode M) (index : Nat)
  | remove (index : Nat)
  deriving DecidableEq

structure Commit (M : Type) where
  proposals : List (Proposal M)
  path : UpdatePath M
  deriving DecidableEq

/-- `EpochSecrets`, schedule.rs 13-24. -/
structure Secrets (M : Type) where
  epochSecret : M
  encryption : M
  confirmation : M
  membership : M
  init : M
  deriving DecidableEq

structure Prims (M : Type) where
  /-- `derive_path_secret` -/
  next : M → M
  /-- public half of `node_keypair_from_path_secret` -/
  pub : M → M
  /-- `kem_encapsulate` accepts the public key -/
  okPk : M → Bool
  /-- `hpke_seal(pk, plaintext)` with its randomness -/
  enc : M → M → Nat → M
  /-- `hpke_open(ct, sk)`, `sk` the secret half of `node_keypair_from_path_secret(ps)` -/
  dec : M → M → Option M
  /-- 32 bytes long -/
  isSecret : M → Bool
  /-- `lca_secret || prev_init` -/
  cat : M → M → M
  /-- inverse, `none` unless 64 bytes long -/
  split : M → Option (M × M)
  /-- `[0u8; 32]` -/
  zero : M
  /-- first half of `EpochSecrets::derive` -/
  epochKdf : M → M → M → M
  /-- `expand` -/
  expand : M → String → M
  /-- `next_transcript`, group.rs 267-273 -/
  transcript : M → Commit M → M
  /-- `message_key_nonce`, application.rs 30-46 -/
  msgKey : M → Nat → Nat → M
  /-- ChaCha20-Poly1305 under a key and nonce -/
  aeadSeal : M → M → M
  aeadOpen : M → M → Option M

/-- Correctness of the primitives. -/
structure Lawful {M : Type} (P : Prims M) : Prop where
  okPub : ∀ s, P.okPk (P.pub s) = true
  dec_enc : ∀ s m r, P.dec s (P.enc (P.pub s) m r) = some m
  secretNext : ∀ s, P.isSecret (P.next s) = true
  secretExpand : ∀ s l, P.isSecret (P.expand s l) = true
  split_cat : ∀ a b, P.isSecret a = true → P.isSecret b = true → P.split (P.cat a b) = some (a, b)
  open_seal : ∀ k m, P.aeadOpen k (P.aeadSeal k m) = some m

variable {M : Type}

/-! ### Ratchet tree -/

/-- `num_leaves`, ratchet_tree.rs 31-37. -/
def numLeaves (t : Tree M) : Nat := (t.length + 1) / 2

/-- `set`, 60-62. -/
def setC (t : Tree M) (x : Nat) (v : Node M) : Option (Tree M) := if x < t.length then some (t.set x v) else none

/-- `from_leaves`, 19-28. -/
def fromLeaves (leaves : List (LeafNode M)) : Tree M :=
  (List.range (2 * leaves.length - 1)).map fun x =>
    if x % 2 = 0 then (match leaves[x / 2]? with | some l => .leaf l | none => .blank) else .blank

/-- `resolution`, 67-92, with fuel: the level drops at each step. -/
def resolutionF (t : Tree M) : Nat → Nat → Option (List Nat)
  | 0, _ => none
  | f + 1, x =>
    match t[x]? with
    | none => none
    | some .blank =>
      if isLeaf x then some []
      else do
        let l ← leftC x
        let a ← resolutionF t f l
        let r ← rightC x (numLeaves t)
        let b ← resolutionF t f r
        return a ++ b
    | some (.leaf _) => some [x]
    | some (.parent _ um) => some (x :: um.map leafToNode)

def resolution (t : Tree M) (x : Nat) : Option (List Nat) := resolutionF t 64 x

def blankAt (t : Tree M) (i : Nat) : Bool :=
  match t[leafToNode i]? with
  | some .blank => true
  | _ => false

/-- One step of the loop in `add_leaf_at`. -/
def markOne (index : Nat) (t : Tree M) (x : Nat) : Option (Tree M) :=
  match t[x]? with
  | none => none
  | some (.parent pk um) => some (if um.contains index then t else t.set x (.parent pk (um ++ [index])))
  | some _ => some t

/-- `add_leaf_at`, 107-126. -/
def addLeafAt (t : Tree M) (index : Nat) (leaf : LeafNode M) : Option (Tree M) := do
  let needed ← if index + 1 < 2 ^ 32 then nodeWidthC (index + 1) else none
  let t1 := if t.length < needed then t ++ List.replicate (needed - t.length) .blank else t
  let x ← leafToNodeC index
  let t2 ← setC t1 x (.leaf { leaf with index := index })
  let dp ← directPathC index (numLeaves t2)
  dp.foldlM (markOne index) t2

/-- `add_leaf`, 97-104: the slot. -/
def freeSlot (t : Tree M) : Nat := ((List.range (numLeaves t)).find? (blankAt t)).getD (numLeaves t)

/-- `remove_leaf`, 130-136. -/
def removeLeaf (t : Tree M) (index : Nat) : Option (Tree M) := do
  let x ← leafToNodeC index
  let t1 ← setC t x .blank
  let dp ← directPathC index (numLeaves t)
  dp.foldlM (fun t x => setC t x .blank) t1

/-- `leaf_index_of_cid`, 40-45. -/
def leafOfCid (t : Tree M) (cid : Nat) : Option Nat :=
  (List.range (numLeaves t)).find? fun i =>
    match t[leafToNode i]? with
    | some (.leaf l) => l.cid == cid
    | _ => false

/-! ### Path update -/

abbrev Own (M : Type) := Nat → Option M

def Own.set (o : Own M) (x : Nat) (s : M) : Own M := fun y => if y = x then some s else o y

variable (P : Prims M)

/-- Sealing to all recipients, path.rs 96-103. `j` counts them. -/
def sealAll (t : Tree M) (ps : M) (rnd : Nat → Nat) : Nat → List Nat → Res (List M)
  | _, [] => .ok []
  | j, r :: rs =>
    match t[r]? with
    | none => .panic
    | some nd =>
      match nd.pk? with
      | none => .err
      | some pk =>
        if P.okPk pk then (sealAll t ps rnd (j + 1) rs).bind fun cts => .ok (P.enc pk ps (rnd j) :: cts)
        else .err

/-- The loop of `generate_update_path`, path.rs 82-109. `cur` is the secret one step below. -/
def genLoop (rnd : Nat → Nat → Nat) : Nat → List Nat → List Nat → M → Tree M → Own M →
    Tree M × Res (List (UpdNode M) × M × Own M)
  | _, [], _, cur, t, own => (t, .ok ([], cur, own))
  | _, _ :: _, [], _, t, _ => (t, .panic)
  | k, x :: dp, c :: cp, cur, t, own =>
    let ps := P.next cur
    match setC t x (.parent (P.pub ps) []) with
    | none => (t, .panic)
    | some t1 =>
      match resolution t1 c with
      | none => (t1, .panic)
      | some rs =>
        match sealAll P t1 ps (rnd k) 0 rs with
        | .err => (t1, .err)
        | .panic => (t1, .panic)
        | .ok cts =>
          let r := genLoop rnd (k + 1) dp cp ps t1 (own.set x ps)
          (r.1, r.2.bind fun (us, root, own') => .ok (⟨P.pub ps, cts⟩ :: us, root, own'))

/-- `generate_update_path`, path.rs 44-118. Result: update, root secret, own secrets. -/
def generateUpdatePath (t : Tree M) (i : Nat) (s : M) (rnd : Nat → Nat → Nat) :
    Tree M × Res (UpdatePath M × M × Own M) :=
  match directPathC i (numLeaves t), copathC i (numLeaves t), leafToNodeC i with
  | some dp, some cp, some x =>
    match t[x]? with
    | none => (t, .panic)
    | some (.leaf l) =>
      let t1 := t.set x (.leaf { l with pk := P.pub s })
      let r := genLoop P rnd 0 dp cp s t1 (Own.set (fun _ => none) x s)
      (r.1, r.2.bind fun (us, root, own) => .ok (⟨i, P.pub s, us⟩, if dp = [] then P.next s else root, own))
    | some _ => (t, .err)
  | _, _, _ => (t, .panic)

/-- Installing public keys on the direct path, path.rs 143-152. -/
def install : List Nat → List (UpdNode M) → Tree M → Option (Tree M)
  | [], _, t => some t
  | _ :: _, [], _ => none
  | x :: dp, u :: us, t => (setC t x (.parent u.pk [])).bind (install dp us)

/-- The inner loop of step 2, path.rs 157-176: first recipient whose secret we hold. -/
def tryOpen (own : Own M) : List Nat → List M → Option (Res M)
  | [], _ => none
  | r :: rs, cts =>
    match own r with
    | none => tryOpen own rs cts.tail
    | some s => some (match cts.head? with
      | none => .err
      | some ct =>
        match P.dec s ct with
        | none => .err
        | some m => if P.isSecret m then .ok m else .err)

/-- Step 3: ratchet up, inserting what is learned. -/
def ratchetUp : M → List Nat → Own M → M × Own M
  | cur, [], own => (cur, own)
  | cur, [x], own => (cur, own.set x cur)
  | cur, x :: y :: dp, own => ratchetUp (P.next cur) (y :: dp) (own.set x cur)

/-- The outer loop of step 2, path.rs 155-187. -/
def findOpen (t : Tree M) (own : Own M) : List Nat → List Nat → List (UpdNode M) → Res (M × Own M)
  | [], _, _ => .err
  | c :: cp, dp, us =>
    match resolution t c with
    | none => .panic
    | some rs =>
      match tryOpen P own rs ((us.head?.map (·.cts)).getD []) with
      | none => findOpen t own cp dp.tail us.tail
      | some r => r.bind fun ps => .ok (ratchetUp P ps dp own)

/-- `apply_update_path`, path.rs 123-191, together with the merge of the learned secrets in group.rs 178-180. -/
def applyUpdatePath (t : Tree M) (u : UpdatePath M) (own : Own M) : Tree M × Res (M × Own M) :=
  match directPathC u.leafIndex (numLeaves t), copathC u.leafIndex (numLeaves t) with
  | some dp, some cp =>
    if dp.length ≠ u.nodes.length then (t, .err)
    else
      match leafToNodeC u.leafIndex with
      | none => (t, .panic)
      | some x =>
        match t[x]? with
        | none => (t, .panic)
        | some (.leaf l) =>
          match install dp u.nodes (t.set x (.leaf { l with pk := u.leafPk })) with
          | none => (t, .panic)
          | some t1 => (t1, findOpen P t1 own cp dp u.nodes)
        | some _ => (t, .err)
  | _, _ => (t, .panic)

/-! ### Key schedule -/

/-- `EpochSecrets::derive`, schedule.rs 33-54. -/
def derive (root prevInit transcript : M) : Secrets M :=
  let e := P.epochKdf root prevInit transcript
  ⟨e, P.expand e "encryption", P.expand e "confirmation", P.expand e "membership", P.expand e "init"⟩

/-! ### Group state -/

/-- `GroupState`, group.rs 21-38. -/
structure GroupState (M : Type) where
  tree : Tree M
  ownLeaf : Nat
  own : Own M
  epoch : Nat
  secrets : Secrets M
  transcript : M
  gen : Nat

/-- `bootstrap`, 43-62. -/
def bootstrap (t : Tree M) (i : Nat) (s genesis : M) : GroupState M :=
  ⟨t, i, Own.set (fun _ => none) (leafToNode i) s, 0, derive P genesis P.zero P.zero, P.zero, 0⟩

/-- `create`, 65-70. -/
def create (founder : LeafNode M) (s : M) : GroupState M :=
  bootstrap P (fromLeaves [{ founder with index := 0 }]) 0 s (P.next s)

/-- `advance_epoch`, 254-261. -/
def advance (g : GroupState M) (root : M) (c : Commit M) : GroupState M :=
  let tr := P.transcript g.transcript c
  { g with transcript := tr, secrets := derive P root g.secrets.init tr, epoch := g.epoch + 1, gen := 0 }

/-- `commit_update`, 79-90. -/
def commitUpdate (g : GroupState M) (s : M) (rnd : Nat → Nat → Nat) : GroupState M × Res (Commit M) :=
  match generateUpdatePath P g.tree g.ownLeaf s rnd with
  | (t, .ok (path, root, own)) =>
    let c : Commit M := ⟨[], path⟩
    (advance P { g with tree := t, own := own } root c, .ok c)
  | (t, .err) => ({ g with tree := t }, .err)
  | (t, .panic) => ({ g with tree := t }, .panic)

/-- `Welcome`, welcome.rs. -/
structure Welcome (M : Type) where
  tree : Tree M
  epoch : Nat
  transcript : M
  joiner : Nat
  lca : Nat
  sealed : M

/-- `add_member`, 94-146. `rw` is the randomness of the last seal. -/
def addMember (g : GroupState M) (leaf : LeafNode M) (s : M) (rnd : Nat → Nat → Nat) (rw : Nat) :
    GroupState M × Res (Commit M × Welcome M) :=
  let q := freeSlot g.tree
  match addLeafAt g.tree q leaf with
  | none => (g, .panic)
  | some t0 =>
    match generateUpdatePath P t0 g.ownLeaf s rnd with
    | (t, .err) => ({ g with tree := t }, .err)
    | (t, .panic) => ({ g with tree := t }, .panic)
    | (t, .ok (path, root, own)) =>
      let g1 := { g with tree := t, own := own }
      match directPathC g.ownLeaf (numLeaves t), directPathC q (numLeaves t) with
      | some dp, some dq =>
        match dp.find? (fun x => dq.contains x) with
        | none => (g1, .err)
        | some lca =>
          match own lca with
          | none => (g1, .err)
          | some ls =>
            let c : Commit M := ⟨[.add leaf q], path⟩
            let g2 := advance P g1 root c
            if P.okPk leaf.pk then
              (g2, .ok (c, ⟨t, g2.epoch, g2.transcript, q, lca, P.enc leaf.pk (P.cat ls g.secrets.init) rw⟩))
            else (g2, .err)
      | _, _ => (g1, .panic)

/-- `remove_member`, 150-165. -/
def removeMember (g : GroupState M) (j : Nat) (s : M) (rnd : Nat → Nat → Nat) : GroupState M × Res (Commit M) :=
  match removeLeaf g.tree j with
  | none => (g, .panic)
  | some t0 =>
    match generateUpdatePath P t0 g.ownLeaf s rnd with
    | (t, .err) => ({ g with tree := t }, .err)
    | (t, .panic) => ({ g with tree := t }, .panic)
    | (t, .ok (path, root, own)) =>
      let c : Commit M := ⟨[.remove j], path⟩
      (advance P { g with tree := t, own := own } root c, .ok c)

/-- The loop over proposals, 170-178. -/
def applyProposal (t : Tree M) : Proposal M → Option (Tree M)
  | .add leaf i => addLeafAt t i leaf
  | .remove i => removeLeaf t i

/-- `process_commit`, 169-184. -/
def processCommit (g : GroupState M) (c : Commit M) : GroupState M × Res Unit :=
  match c.proposals.foldlM applyProposal g.tree with
  | none => (g, .panic)
  | some t0 =>
    match applyUpdatePath P t0 c.path g.own with
    | (t, .err) => ({ g with tree := t }, .err)
    | (t, .panic) => ({ g with tree := t }, .panic)
    | (t, .ok (root, own)) => (advance P { g with tree := t, own := own } root c, .ok ())

/-- `join_from_welcome`, 188-233. -/
def joinFromWelcome (w : Welcome M) (s : M) : Res (GroupState M) :=
  match P.dec s w.sealed with
  | none => .err
  | some payload =>
    match P.split payload with
    | none => .err
    | some (ls, prevInit) =>
      match directPathC w.joiner (numLeaves w.tree) with
      | none => .panic
      | some dp =>
        if w.lca ∈ dp then
          let r := ratchetUp P ls (dp.drop (dp.idxOf w.lca)) (Own.set (fun _ => none) (leafToNode w.joiner) s)
          .ok ⟨w.tree, w.joiner, r.2, w.epoch, derive P r.1 prevInit w.transcript, w.transcript, 0⟩
        else .err

/-- `AppCiphertext`, application.rs 15-26. -/
structure AppMsg (M : Type) where
  epoch : Nat
  sender : Nat
  gen : Nat
  ct : M

/-- `encrypt_message`, 236-246 with `seal`, application.rs 49-70. -/
def encryptMessage (g : GroupState M) (m : M) : GroupState M × AppMsg M :=
  ({ g with gen := (g.gen + 1) % 2 ^ 32 },
    ⟨g.epoch, g.ownLeaf, g.gen, P.aeadSeal (P.msgKey g.secrets.encryption g.ownLeaf g.gen) m⟩)

/-- `decrypt_message`, 250-259 with `open`. -/
def decryptMessage (g : GroupState M) (a : AppMsg M) : Option M :=
  if a.epoch = g.epoch then P.aeadOpen (P.msgKey g.secrets.encryption a.sender a.gen) a.ct else none

end Verif.TreeKem

import Verif.TreeKem.Model
/-
Model of the client side coordinator of a group's key agreement, and of the client's handling of relayed group signals.

Sources under /repo/citadel_proto/src/proto: peer/group_cgka/mod.rs 28-245; packet_processor/peer/group_broadcast.rs 505-555
(`Message`), 898-1010 (`KeyPackage`, `Welcome`, `Commit`), 1075-1112 (publishing a key package), 1117-1185 (owner adds a
member); session.rs 941-995 (an `Err` from a packet handler ends the session); state_container/rekey_and_groups.rs 205-232
(kick).

Simplifications: one group key; the hierarchy overlay is left out (see `Verif.Hierarchy`), so the mode is `Flat`; a payload that
does not deserialize is `none`; `epoch + 1` is the overflow-checked `u64` addition.
-/
namespace Verif.GroupCgka

open Verif.TreeKem

/-- `GroupCgkaState`, mod.rs 28-48. -/
structure Cgka (M : Type) where
  group : Option (GroupState M)
  leafSecret : M
  isOwner : Bool

variable {M : Type} (P : Prims M)

/-- The leaf of `KeyPackage::generate`, keys.rs 20-32. -/
def keyPackage (cid : Nat) (s : M) : LeafNode M := ⟨cid, P.pub s, 0⟩

/-- `new_owner`, 69-88. -/
def newOwner (cid : Nat) (s : M) : Cgka M := ⟨some (create P (keyPackage P cid s) s), s, true⟩

/-- `new_joiner`, 92-112. -/
def newJoiner (cid : Nat) (s : M) : Cgka M × LeafNode M := (⟨none, s, false⟩, keyPackage P cid s)

/-- `add_member`, 118-146. -/
def addMember (c : Cgka M) (kp : Option (LeafNode M)) (s : M) (rnd : Nat → Nat → Nat) (rw : Nat) :
    Cgka M × Res (Welcome M × Commit M × Nat) :=
  if c.isOwner = false then (c, .err)
  else
    match kp with
    | none => (c, .err)
    | some leaf =>
      match c.group with
      | none => (c, .err)
      | some g =>
        let r := TreeKem.addMember P g leaf s rnd rw
        ({ c with group := some r.1 }, r.2.bind fun x => .ok (x.2, x.1, r.1.epoch))

/-- `remove_member`, 151-165. -/
def removeMember (c : Cgka M) (j : Nat) (s : M) (rnd : Nat → Nat → Nat) : Cgka M × Res (Commit M × Nat) :=
  if c.isOwner = false then (c, .err)
  else
    match c.group with
    | none => (c, .err)
    | some g =>
      let r := TreeKem.removeMember P g j s rnd
      ({ c with group := some r.1 }, r.2.bind fun x => .ok (x, r.1.epoch))

/-- `remove_member_by_cid`, 168-186. -/
def removeByCid (c : Cgka M) (cid : Nat) (s : M) (rnd : Nat → Nat → Nat) : Cgka M × Res (Option (Commit M × Nat)) :=
  if c.isOwner = false then (c, .err)
  else
    match c.group with
    | none => (c, .err)
    | some g =>
      match leafOfCid g.tree cid with
      | none => (c, .ok none)
      | some j =>
        let r := removeMember P c j s rnd
        (r.1, r.2.bind fun x => .ok (some x))

/-- `join`, 189-195. -/
def join (c : Cgka M) (w : Option (Welcome M)) : Cgka M × Res Unit :=
  match w with
  | none => (c, .err)
  | some w =>
    match joinFromWelcome P w c.leafSecret with
    | .ok g => ({ c with group := some g }, .ok ())
    | .err => (c, .err)
    | .panic => (c, .panic)

/-- `process_commit`, 202-216. -/
def processCommit (c : Cgka M) (cm : Option (Commit M)) (epoch : Nat) : Cgka M × Res Unit :=
  match c.group with
  | none => (c, .ok ())
  | some g =>
    if g.epoch + 1 = 2 ^ 64 then (c, .panic)
    else if epoch ≠ g.epoch + 1 then (c, .ok ())
    else
      match cm with
      | none => (c, .err)
      | some cm =>
        let r := TreeKem.processCommit P g cm
        ({ c with group := some r.1 }, r.2)

/-- `encrypt_message`, 221-234. -/
def encrypt (c : Cgka M) (m : M) : Cgka M × Res (AppMsg M) :=
  match c.group with
  | none => (c, .err)
  | some g => let r := encryptMessage P g m; ({ c with group := some r.1 }, .ok r.2)

/-- `decrypt_message`, 237-250. -/
def decrypt (c : Cgka M) (a : Option (AppMsg M)) : Option M :=
  match c.group, a with
  | some g, some a => decryptMessage P g a
  | _, _ => none

/-! ### Relayed signals at a client -/

/-- Group signals that the server relays from one client to another. The payload is `none` if it does not deserialize. -/
inductive Sig (M : Type)
  | keyPackage (joiner : Nat) (kp : Option (LeafNode M))
  | welcome (w : Option (Welcome M))
  | commit (epoch : Nat) (c : Option (Commit M))
  | message (a : Option (AppMsg M))

/-- What comes of it. -/
inductive Out (M : Type)
  | nothing
  /-- plaintext handed to the application -/
  | plain (m : M)
  /-- `Welcome` to `joiner`, then `Commit` to the group -/
  | added (joiner : Nat) (w : Welcome M) (epoch : Nat) (c : Commit M)
  /-- the session ends -/
  | ended
  | panic

/-- An `Err` ends the session, session.rs 972-976. -/
def outOf {A : Type} (r : Res A) (f : A → Out M) : Out M :=
  match r with
  | .ok a => f a
  | .err => .ended
  | .panic => .panic

/-- A client's reaction to a relayed signal for the group key. `cl` is `group_cgka.get(key)`. -/
def onSignal (cl : Option (Cgka M)) (s : M) (rnd : Nat → Nat → Nat) (rw : Nat) : Sig M → Option (Cgka M) × Out M
  | .keyPackage joiner kp =>
    match cl with
    | none => (cl, .ended)
    | some c => let r := addMember P c kp s rnd rw; (some r.1, outOf r.2 fun x => .added joiner x.1 x.2.2 x.2.1)
  | .welcome w =>
    match cl with
    | none => (cl, .ended)
    | some c => let r := join P c w; (some r.1, outOf r.2 fun _ => .nothing)
  | .commit e cm =>
    match cl with
    | none => (cl, .nothing)
    | some c => let r := processCommit P c cm e; (some r.1, outOf r.2 fun _ => .nothing)
  | .message a =>
    match cl with
    | none => (cl, .nothing)
    | some c => (cl, match decrypt P c a with | some m => .plain m | none => .nothing)

/-- `cgka_joiner_publish_key_package`, group_broadcast.rs 1075-1112, once the client is a member at the server. -/
def publish (cl : Option (Cgka M)) (cid : Nat) (s : M) : Option (Cgka M) × Option (LeafNode M) :=
  match cl with
  | some c => (some c, none)
  | none => let r := newJoiner P cid s; (some r.1, some r.2)

end Verif.GroupCgka

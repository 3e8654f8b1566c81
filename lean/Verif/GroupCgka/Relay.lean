import Verif.GroupCgka.Model
/-
Model of a group whose server relays faithfully: the owner, the clients, the server's roster and everything in flight.

Sources under /repo/citadel_proto/src/proto: packet_processor/peer/group_broadcast.rs 505-560 (`Message`), 570-612
(`AcceptMembership`), 659-682 (`AcceptMembershipResponse`), 689-730 (`LeaveRoom`), 834-863 (`Kick`), 898-1010 (`KeyPackage`,
`Welcome`, `Commit`), 1075-1185; session_manager.rs 1110-1190 (`kick_from_message_group`), 1199-1230
(`broadcast_signal_to_group`), 1319-1336 (`route_packet_to`); state_container/rekey_and_groups.rs 139-232 (outbound `Message`
and `Kick`).

Simplifications: one group; packets on one connection stay in order, except that the server hands on a `Welcome` without waiting
for the roster lock, so it may overtake earlier commits of the owner; a client's messages reach the server at once; messages to the
owner are left out; nobody disconnects; the server's notifications about the membership are left out. Whom the server accepts, and
when, is arbitrary.
-/
namespace Verif.GroupCgka

open Verif.TreeKem

/-- From the server to a client. -/
inductive Down (M : Type)
  /-- `AcceptMembershipResponse` -/
  | accepted
  | sig (s : Sig M)

/-- From the owner to the server. -/
inductive Up (M : Type)
  | kick (cid : Nat)
  | commit (epoch : Nat) (c : Commit M)
  | message (a : AppMsg M)

structure Sys (M : Type) where
  owner : Cgka M
  clients : Nat → Option (Cgka M)
  /-- `concurrent_peers` without the owner -/
  roster : Nat → Bool
  /-- key packages on their way to the owner; a client publishes one at most -/
  kps : Nat → Option (LeafNode M)
  up : List (Up M)
  down : Nat → List (Down M)
  /-- has been accepted some time -/
  seen : Nat → Bool

inductive Act (M : Type)
  /-- the server lets `c` in -/
  | accept (c : Nat)
  /-- the owner gets the key package of `c` -/
  | add (c : Nat) (s : M) (rnd : Nat → Nat → Nat) (rw : Nat)
  | kick (c : Nat) (s : M) (rnd : Nat → Nat → Nat)
  /-- the server gets the owner's next packet -/
  | relay
  /-- client `c` gets its next packet; `s` is the secret it draws if it needs one -/
  | client (c : Nat) (s : M)
  | leave (c : Nat)
  | send (c : Nat) (m : M)
  | ownerSend (m : M)

variable {M : Type} (P : Prims M)

def put {A : Type} (f : Nat → A) (c : Nat) (a : A) : Nat → A := fun x => if x = c then a else f x

/-- To all on the roster but `c`. -/
def Sys.cast (y : Sys M) (c : Option Nat) (d : Down M) : Nat → List (Down M) := fun x =>
  if y.roster x = true ∧ some x ≠ c then y.down x ++ [d] else y.down x

def act (y : Sys M) : Act M → Sys M × Out M
  | .accept c => ({ y with roster := put y.roster c true, seen := put y.seen c true, down := put y.down c (y.down c ++ [.accepted]) }, .nothing)
  | .add c s rnd rw =>
    match y.kps c with
    | none => (y, .nothing)
    | some kp =>
      match onSignal P (some y.owner) s rnd rw (.keyPackage c (some kp)) with
      | (some ow, .added joiner wel e cm) =>
        ({ y with owner := ow, kps := put y.kps c none, up := y.up ++ [.commit e cm],
                  down := put y.down joiner (y.down joiner ++ [.sig (.welcome (some wel))]) }, .nothing)
      | (ow, out) => ({ y with owner := ow.getD y.owner, kps := put y.kps c none }, out)
  | .kick c s rnd =>
    match removeByCid P y.owner c s rnd with
    | (ow, .ok (some (cm, e))) => ({ y with owner := ow, up := y.up ++ [.kick c, .commit e cm] }, .nothing)
    | (ow, .ok none) => ({ y with owner := ow, up := y.up ++ [.kick c] }, .nothing)
    | (ow, .err) => ({ y with owner := ow, up := y.up ++ [.kick c] }, .ended)
    | (ow, .panic) => ({ y with owner := ow, up := y.up ++ [.kick c] }, .panic)
  | .relay =>
    match y.up with
    | [] => (y, .nothing)
    | .kick c :: rest => ({ y with up := rest, roster := put y.roster c false }, .nothing)
    | .commit e cm :: rest => ({ y with up := rest, down := y.cast none (.sig (.commit e (some cm))) }, .nothing)
    | .message a :: rest => ({ y with up := rest, down := y.cast none (.sig (.message (some a))) }, .nothing)
  | .client c s =>
    match y.down c with
    | [] => (y, .nothing)
    | .accepted :: rest =>
      let r := publish P (y.clients c) c s
      ({ y with down := put y.down c rest, clients := put y.clients c r.1,
                kps := match r.2 with | some kp => put y.kps c (some kp) | none => y.kps }, .nothing)
    | .sig x :: rest =>
      let r := onSignal P (y.clients c) s (fun _ _ => 0) 0 x
      ({ y with down := put y.down c rest, clients := put y.clients c r.1 }, r.2)
  | .leave c => ({ y with roster := put y.roster c false }, .nothing)
  | .send c m =>
    match y.clients c with
    | none => (y, .nothing)
    | some cl =>
      match encrypt P cl m with
      | (cl', .ok a) => ({ y with clients := put y.clients c (some cl'), down := y.cast (some c) (.sig (.message (some a))) }, .nothing)
      | (_, _) => (y, .nothing)
  | .ownerSend m =>
    match encrypt P y.owner m with
    | (ow, .ok a) => ({ y with owner := ow, up := y.up ++ [.message a] }, .nothing)
    | (_, _) => (y, .nothing)

/-- The owner `o` has just made the group. -/
def Sys.start (o : Nat) (s : M) : Sys M := ⟨newOwner P o s, fun _ => none, fun _ => false, fun _ => none, [], fun _ => [], fun _ => false⟩

/-- The owner may make another commit: counters do not overflow. -/
def Room (y : Sys M) : Prop := ∀ g, y.owner.group = some g → numLeaves g.tree < 2 ^ 31 ∧ g.epoch + 2 < 2 ^ 64

/-- No client is accepted a second time, and the owner is not kicked. -/
def Proper (o : Nat) (y : Sys M) : Act M → Prop
  | .accept c => c ≠ o ∧ y.seen c = false
  | .add _ _ _ _ => Room y
  | .kick c _ _ => c ≠ o ∧ Room y
  | _ => True

inductive SysReach (o : Nat) : Sys M → Prop
  | start (s : M) : SysReach o (Sys.start P o s)
  | act {y : Sys M} (a : Act M) : SysReach o y → Proper o y a → SysReach o (act P y a).1

end Verif.GroupCgka

import Verif.Common.AssocMap
/-
Model of message groups on the server and of the owner's list of key holders.
Sources: /repo/citadel_proto/src/proto/packet_processor/peer/group_broadcast.rs lines 284-1040 (`process_group_broadcast`, server
branches), 1267-1274 (`permission_gate`), 1104-1175 (`cgka_owner_add_member`);
/repo/citadel_proto/src/proto/peer/peer_layer.rs lines 150-365; /repo/citadel_proto/src/proto/session_manager.rs lines 1034-1225;
/repo/citadel_proto/src/proto/state_container/rekey_and_groups.rs lines 79-235 (outbound `Create` and `Kick` of the owner);
/repo/citadel_proto/src/proto/state_container/group_hierarchy_outbound.rs lines 14-29 (`init_owner_cgka`);
/repo/citadel_proto/src/proto/peer/group_cgka/mod.rs lines 115-180.

A signal arrives on the session of the authenticated client `c`; `h` is the `session_cid` field of the packet header, which
that client filled in and which the server uses as the acting cid (line 300). `HashMap`s keyed by cid are lists used as sets.
Replies to the sender, tickets, mailboxes and ranks are left out. Of the owner's ratchet tree only the cids of its leaves
are kept. A group is named by (owner, id).
-/
namespace Verif.Roster
open Verif

abbrev Key := Nat × Nat

/-- `MessageGroup`: active members, peers that may be upgraded, `GroupType::Public`. -/
structure Group where
  members : List Nat
  pending : List Nat
  isPublic : Bool
deriving DecidableEq, Repr

/-- Server state plus, per group, the leaves of the ratchet tree at the owner's client. -/
structure Server where
  /-- Cids with an entry in `message_groups`, i.e. connected clients. -/
  hosts : List Nat
  groups : AMap Key Group
  trees : AMap Key (List Nat)
deriving DecidableEq, Repr

def init : Server := { hosts := [], groups := [], trees := [] }

/-- Change the value of an existing key. -/
def modify {α : Type} (m : AMap Key α) (k : Key) (f : α → α) : AMap Key α :=
  match m.get? k with
  | some g => m.insert k (f g)
  | none => m

def addTo (p : Nat) (l : List Nat) : List Nat := if p ∈ l then l else p :: l

inductive Signal where
  | create (mgid : Nat) (peers : List Nat) (isPublic : Bool)
  | requestJoin (key : Key)
  | endGroup (key : Key)
  | message (key : Key)
  | accept (target : Nat) (key : Key)
  | decline (target : Nat) (key : Key)
  | leave (key : Key)
  /-- `Add`; `invited` are the invitees to whom an invitation could be sent (`peers_okay`). -/
  | add (key : Key) (invited : List Nat)
  | kick (key : Key) (peers : List Nat)
  /-- `KeyPackage` of `joiner`. -/
  | keyPackage (key : Key) (joiner : Nat)
deriving DecidableEq, Repr

/-- `request_join` after `add_pending_peers_to_group`, peer_layer.rs lines 351-365. -/
def joinGroup (h : Nat) (g : Group) : Group :=
  let g := { g with pending := h :: g.pending }
  if g.isPublic then { g with members := addTo h g.members } else g

/-- `upgrade_peer_in_group`, lines 268-283. -/
def upgrade (target : Nat) (g : Group) : Group :=
  if target ∈ g.pending then
    { g with members := addTo target g.members, pending := g.pending.filter (· ≠ target) }
  else g

/-- What the server does with a signal whose header names `h`; the list is the recipients of a `Message`. -/
def handle (s : Server) (h : Nat) : Signal → Server × List Nat
  | .create mgid peers isPublic =>
    -- create_new_message_group, lines 198-245
    if h ∈ s.hosts ∧ (s.groups.filter (fun e => e.1.1 = h)).length ≤ 255 ∧ s.groups.contains (h, mgid) = false then
      ({ s with groups := s.groups.insert (h, mgid) { members := [h], pending := peers, isPublic := isPublic } }, [])
    else (s, [])
  | .requestJoin key => ({ s with groups := modify s.groups key (joinGroup h) }, [])
  | .endGroup key => if h = key.1 then ({ s with groups := s.groups.erase key }, []) else (s, [])
  | .message key =>
    match s.groups.get? key with
    | some g => (s, g.members.filter (· ≠ h))
    | none => (s, [])
  | .accept target key => ({ s with groups := modify s.groups key (upgrade target) }, [])
  | .decline target key =>
    ({ s with groups := modify s.groups key (fun g => { g with pending := g.pending.filter (· ≠ target) }) }, [])
  | .leave key =>
    ({ s with groups := modify s.groups key (fun g => { g with members := g.members.filter (· ≠ h) }) }, [])
  | .add key invited =>
    if h = key.1 then
      ({ s with groups := modify s.groups key (fun g => { g with pending := invited ++ g.pending }) }, [])
    else (s, [])
  | .kick key peers =>
    if h = key.1 then
      ({ s with groups := modify s.groups key (fun g => { g with members := g.members.filter (· ∉ peers) }) }, [])
    else (s, [])
  | .keyPackage key joiner =>
    -- relayed to the owner, whose client adds a leaf (group_cgka entry required)
    if key.1 ∈ s.hosts then ({ s with trees := modify s.trees key (fun l => l ++ [joiner]) }, []) else (s, [])

/-- What the client `c` does to its own key state when it sends the signal. -/
def clientSide (s : Server) (c : Nat) : Signal → Server
  | .create mgid _ _ =>
    if s.trees.contains (c, mgid) then s else { s with trees := s.trees.insert (c, mgid) [c] }
  | .kick key peers =>
    if c = key.1 then { s with trees := modify s.trees key (fun l => peers.foldl List.erase l) } else s
  | _ => s

inductive Op where
  | connect (c : Nat)
  | disconnect (c : Nat)
  | signal (c h : Nat) (sig : Signal)
deriving DecidableEq, Repr

/-- One step. `on_session_shutdown` drops the groups of a leaving owner, whose client drops its key state. -/
def step (s : Server) : Op → Server × List Nat
  | .connect c => ({ s with hosts := addTo c s.hosts }, [])
  | .disconnect c =>
    ({ hosts := s.hosts.filter (· ≠ c), groups := s.groups.filter (fun e => e.1.1 ≠ c),
       trees := s.trees.filter (fun e => e.1.1 ≠ c) }, [])
  | .signal c h sig => if c ∈ s.hosts then handle (clientSide s c sig) h sig else (s, [])

def after (ops : List Op) : Server := ops.foldl (fun s op => (step s op).1) init

/-- Active members of a group (none if it does not exist). -/
def members (s : Server) (key : Key) : List Nat := ((s.groups.get? key).map Group.members).getD []
/-- Peers that an `AcceptMembership` can turn into members. -/
def pending (s : Server) (key : Key) : List Nat := ((s.groups.get? key).map Group.pending).getD []
/-- Leaves of the owner's ratchet tree. -/
def keyHolders (s : Server) (key : Key) : List Nat := (s.trees.get? key).getD []

end Verif.Roster

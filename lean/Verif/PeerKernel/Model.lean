/-
The kernel that connects to a list of peers: how the results of the connections reach the user, and which receiver a
file offered by a peer ends up in.

Source:
  /repo/citadel_sdk/src/prefabs/client/peer_connection.rs lines 82-226 (`PeerConnectionKernel`, `FileTransferHandleRx`,
    `on_node_event_received`), 397-556 (`on_c2s_channel_received`, `construct`),
  /repo/citadel_user/src/hypernode_account.rs lines 121-151 (`search_peer`, `get_cid`),
  /repo/citadel_proto/src/proto/packet_processor/file_packet.rs lines 126-240 (`FILE_HEADER`, `FILE_HEADER_ACK`),
  /repo/citadel_proto/src/proto/state_container/inbound_transfer.rs lines 81-160 (`on_file_header_received`),
  /repo/citadel_proto/src/proto/state_container/outbound_transfer.rs lines 8-80 (`on_file_header_ack_received`),
  /repo/citadel_types/src/proto/mod.rs lines 632-651 (`get_target_cid`, `get_session_cid`).

Simplifications:
* The calls of the SDK a task makes (`find_target`, `propose_target`, `is_peer_registered`, `register_to_peer`,
  `connect_to_peer_custom`) are one step each for success and failure; they may take forever.
* A task that has finished its work sends the result in a separate step (the runtime may interrupt it there).
* A file handle carries the party whose keys the packet was made with; the code has no such field. Party 0 is the
  server.
* Results of earlier calls that wait for a ticket are not shown to the kernel (`Verif.Callbacks`) and left out here.
-/
namespace Verif.PeerKernel

/-! ### Handles of files -/

/-- `VirtualTargetType` in the local group. -/
inductive VTarget where
  | peer (session peer : Nat)
  | server (session : Nat)
deriving DecidableEq, Repr

def VTarget.sessionCid : VTarget → Nat
  | .peer s _ => s
  | .server s => s

def VTarget.targetCid : VTarget → Nat
  | .peer _ p => p
  | .server _ => 0

/-- The target as the receiver sees it: file_packet.rs lines 134-156. -/
def VTarget.flip : VTarget → VTarget
  | .peer s p => .peer p s
  | .server s => .server s

inductive Orientation where
  | sender
  | receiver
deriving DecidableEq, Repr

/-- `ObjectTransferHandler`. -/
structure Handle where
  source : Nat
  receiver : Nat
  orientation : Orientation
  /-- `transfer_type` is `RemoteEncryptedVirtualFilesystem`. -/
  revfs : Bool
  /-- Who made the packet the handle was made for. -/
  by_ : Nat
  id : Nat
deriving DecidableEq, Repr

/-- The session and the handle the kernel is given for a `FILE_HEADER` with the target `vt`. -/
def inbound (by_ id : Nat) (vt : VTarget) (revfs : Bool) : Nat × Handle :=
  (vt.flip.sessionCid,
    { source := vt.flip.targetCid, receiver := vt.flip.sessionCid, orientation := .receiver, revfs, by_, id })

/-- The session and the handle the kernel is given for a `FILE_HEADER_ACK` with the target `vt` and the two ids of the
header. -/
def outbound (by_ id hs ht : Nat) (vt : VTarget) (revfs : Bool) : Nat × Handle :=
  let sid := if hs ≠ 0 ∧ ht ≠ 0 then ht else hs
  (sid, { source := sid, receiver := vt.sessionCid, orientation := .sender, revfs, by_, id })

/-- `PeerConnectionType::LocalGroupPeer`: session and peer. -/
abbrev Key := Nat × Nat

/-- The connection a handle belongs to: peer_connection.rs lines 168-199. -/
def connOf (sid : Nat) (h : Handle) : Key :=
  if h.revfs then (sid, if sid ≠ h.source then h.source else h.receiver)
  else if h.orientation = .receiver then (sid, h.source)
  else (sid, h.receiver)

/-! ### The tasks -/

/-- `UserIdentifier`. -/
inductive UserId where
  | cid (c : Nat)
  | name (s : List Char)
deriving DecidableEq, Repr

/-- `get_cid`; `hash` is `username_to_cid`. -/
def UserId.getCid (hash : List Char → Nat) : UserId → Nat
  | .cid c => c
  | .name s => hash s

/-- The connection a task registers early: `known` is what `search_peer` found. -/
def earlyKey (hash : List Char → Nat) (sid : Nat) (known : Option Nat) (id : UserId) : Key :=
  (sid, match known with
    | some c => c
    | none => id.getCid hash)

/-- What a task sends: the connection it made, or an error. -/
inductive Outcome where
  | ok (conn : Key)
  | err
deriving DecidableEq, Repr

inductive Phase where
  /-- Finding or registering to the peer. -/
  | preparing
  /-- In `connect_to_peer_custom`. -/
  | connecting
  /-- In `tx.send`. -/
  | sending (o : Outcome)
  | done (o : Outcome)
  /-- Dropped before it was done. -/
  | cancelled
deriving DecidableEq, Repr

structure St where
  /-- The number of peers, the capacity of the channel of results. -/
  n : Nat
  /-- The connection each task registers early. -/
  key : Nat → Key
  ph : Nat → Phase
  /-- `active_peer_conns`: whose sender is stored for a connection. -/
  act : Key → Option Nat
  /-- The receiver of file handles of a task still exists. -/
  alive : Nat → Bool
  /-- The handles put into the receiver of a task. -/
  inbox : Nat → List Handle
  /-- All results sent, in order. -/
  results : List (Nat × Outcome)
  /-- How many of them the user has taken. -/
  taken : Nat
  /-- The user still holds the receiver of the results. -/
  rx : Bool
  /-- `requests.try_collect` ended with an error. -/
  failed : Bool
  /-- What the function of the user returned. -/
  user : Option Bool
  /-- The events passed to the inner kernel. -/
  inner : List Nat

/-- A function changed at one place. -/
def upd {κ α : Type} [DecidableEq κ] (f : κ → α) (k : κ) (v : α) : κ → α := fun x => if x = k then v else f x

/-- The start of `on_c2s_channel_received`, up to the creation of the tasks. `tokio::sync::mpsc::channel` panics for the
capacity 0. -/
inductive Start where
  /-- A search in the backend failed: the error is returned. -/
  | failed
  | panicked
  | running (s : St)

def init (n : Nat) (key : Nat → Key) : St where
  n := n
  key := key
  ph := fun _ => .preparing
  act := fun _ => none
  alive := fun _ => true
  inbox := fun _ => []
  results := []
  taken := 0
  rx := true
  failed := false
  user := none
  inner := []

/-- `found` has what `search_peer` returned for each peer; `none` is an error. -/
def start (hash : List Char → Nat) (sid : Nat) (peers : List (UserId × Option (Option Nat))) : Start :=
  if peers.any fun p => p.2.isNone then .failed
  else if peers.length = 0 then .panicked
  else .running (init peers.length fun i =>
    match peers[i]? with
    | some (id, some m) => earlyKey hash sid m id
    | _ => (sid, 0))

inductive Act where
  /-- `find_target`, or proposing and registering, fails. -/
  | prepareFail (i : Nat)
  | prepared (i : Nat)
  | connectFail (i : Nat)
  /-- `connect_to_peer_custom` succeeds with a channel of this connection. -/
  | connectOk (i : Nat) (conn : Key)
  | send (i : Nat)
  /-- The user takes the next result, drops the receiver of results, drops a receiver of file handles, returns. -/
  | take
  | dropRx
  | dropFiles (i : Nat)
  | finish (ok : Bool)
  /-- `NodeResult::ObjectTransferHandle`. -/
  | file (sid : Nat) (h : Handle)
  /-- Every other event, the end of a connection to a peer for one. -/
  | event (e : Nat)

def Phase.finished : Phase → Bool
  | .done _ => true
  | _ => false

/-- The tasks that are dropped when one of them returns an error. -/
def cancelAll (s : St) : St :=
  { s with
    ph := fun i => if i < s.n ∧ (s.ph i).finished = false then .cancelled else s.ph i,
    alive := fun i => if i < s.n ∧ (s.ph i).finished = false then false else s.alive i,
    failed := true }

/-- `active_peer_conns` after a connection was made: lines 504-516. -/
def settle (act : Key → Option Nat) (early actual : Key) : Key → Option Nat :=
  if actual = early then act
  else match act early with
    | some j => upd (upd act early none) actual (some j)
    | none => act

def step (s : St) : Act → St
  | .prepareFail i =>
    if i < s.n ∧ s.ph i = .preparing then { s with ph := upd s.ph i (.sending .err), alive := upd s.alive i false } else s
  | .prepared i =>
    if i < s.n ∧ s.ph i = .preparing then { s with ph := upd s.ph i .connecting, act := upd s.act (s.key i) (some i) }
    else s
  | .connectFail i =>
    if i < s.n ∧ s.ph i = .connecting then
      { s with
        ph := upd s.ph i (.sending .err),
        act := upd s.act (s.key i) none,
        alive := upd s.alive i false }
    else s
  | .connectOk i conn =>
    if i < s.n ∧ s.ph i = .connecting then
      { s with ph := upd s.ph i (.sending (.ok conn)), act := settle s.act (s.key i) conn }
    else s
  | .send i =>
    if i < s.n then
      match s.ph i with
      | .sending o =>
        if s.rx then { s with ph := upd s.ph i (.done o), results := s.results ++ [(i, o)] } else cancelAll s
      | _ => s
    else s
  | .take => if s.rx ∧ s.taken < s.results.length then { s with taken := s.taken + 1 } else s
  | .dropRx =>
    if s.rx then
      { s with
        rx := false,
        alive := fun i => if i ∈ (s.results.drop s.taken).map Prod.fst then false else s.alive i }
    else s
  | .dropFiles i => if i ∈ (s.results.take s.taken).map Prod.fst then { s with alive := upd s.alive i false } else s
  | .finish ok => if s.user = none then { s with user := some ok } else s
  | .file sid h =>
    match s.act (connOf sid h) with
    | some i => if s.alive i then { s with inbox := upd s.inbox i (s.inbox i ++ [h]) } else s
    | none => s
  | .event e => { s with inner := s.inner ++ [e] }

def run (s : St) (as : List Act) : St := as.foldl step s

/-- What `recv` on the channel of results gives: a result, the end of the channel, or nothing yet. The channel ends
when every task, and so every sender, is gone. -/
inductive Recv where
  | got (r : Nat × Outcome)
  | ended
  | waiting
deriving DecidableEq, Repr

def Phase.gone : Phase → Bool
  | .done _ => true
  | .cancelled => true
  | _ => false

def recv (s : St) : Recv :=
  match s.results[s.taken]? with
  | some r => .got r
  | none => if (List.range s.n).all fun i => (s.ph i).gone then .ended else .waiting

/-- What `on_c2s_channel_received` returns: lines 533-539. -/
def returned (s : St) : Option Bool :=
  match s.user with
  | none => none
  | some u =>
    if s.failed then some false
    else if (List.range s.n).all fun i => (s.ph i).finished then some u
    else none

/-- The stream of file handles of a task has ended: no sender is left. -/
def ended (s : St) (i : Nat) : Prop := (s.ph i).gone = true ∧ ∀ k, s.act k ≠ some i

end Verif.PeerKernel

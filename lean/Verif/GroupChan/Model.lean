/-
Model of the channel of a group at a client: how it is opened, what goes through it and how it ends.

Sources under /repo/citadel_proto/src/proto: peer/group_channel.rs 72-291; packet_processor/peer/group_broadcast.rs 284-1080
(the signals as the client and the server handle them), 1054-1073 (`create_group_channel`), 1075-1112
(`cgka_joiner_publish_key_package`), 1232-1264 (`forward_signal`); state_container/rekey_and_groups.rs 78-272
(`process_outbound_broadcast_command`, `setup_group_channel_endpoints`); state_container/group_hierarchy_outbound.rs 14-29;
session.rs 1899-2090 (`spawn_message_sender_function`); session_manager.rs 1069-1200; peer/peer_layer.rs 180-385.

One group key and one client, who owns the group or not; the others are the environment. The stream of packets between the
client and the server keeps the order, in both directions. Simplifications: the client is connected all the time, tickets and
security levels are left out; of the key agreement only the presence of the entry in `group_cgka` is kept, and a Welcome that
the owner made for this client can be opened; the limit of 256 groups per owner and `RequestJoinPending` are left out; signals that end nothing and open nothing are numbers. An `Err` of the handler
ends the session (`dead`, session.rs 941-995).
-/
namespace Verif.GroupChan

/-- What the server sends to the client about the group. -/
inductive Sig
  /-- `CreateResponse { key: Some(_) }`, or with `None` -/
  | createResp (ok : Bool)
  | acceptResp (ok : Bool)
  | endResp (ok : Bool)
  | leaveResp (ok : Bool)
  /-- `Disconnected` -/
  | disconnected
  | welcome
  /-- any other signal that `forward_signal` is called with `Some(key)` for: messages, changes of members, responses -/
  | other (x : Nat)
  deriving DecidableEq, Repr

/-- What the client sends to the server. -/
inductive Req
  | create
  | requestJoin
  | accept
  | leave
  | endIt
  /-- `Kick`; whether the client itself is in the list -/
  | kick (self : Bool)
  /-- `Message` and other commands after which the server answers with a signal that ends nothing -/
  | other (x : Nat)
  | keyPackage
  deriving DecidableEq, Repr

/-- A `GroupChannel` in the hands of the user: whether its receiving half lives, and the queue `to_session_tx`. -/
structure Handle where
  recv : Bool := true
  q : List Req := []
  deriving DecidableEq, Repr

structure State where
  /-- the client owns the group: `key.cid` is its cid -/
  owner : Bool
  /-- `GroupType::Public` -/
  isPublic : Bool := false
  /-- `MAX_OUTGOING_UNPROCESSED_REQUESTS` -/
  cap : Nat
  /-- the entry of `group_channels`: the number of the channel -/
  reg : Option Nat := none
  /-- an entry in `group_cgka` -/
  cgka : Bool := false
  /-- every channel that was made -/
  hs : List Handle := []
  /-- the session has ended -/
  dead : Bool := false
  up : List Req := []
  down : List Sig := []
  /-- the server: the group exists; the client is one of `concurrent_peers`; of `pending_peers` -/
  ex : Bool := false
  mem : Bool := false
  pend : Bool := false
  /-- key packages of the client on the way to the owner -/
  kps : Nat := 0
  deriving DecidableEq, Repr

/-- Where a signal goes at the client. -/
inductive Place
  /-- into the stream of a channel -/
  | stream (n : Nat)
  /-- to the kernel, as a `GroupEvent` -/
  | kernel
  /-- `unbounded_send` fails; this is logged -/
  | nowhere
  /-- the node keeps it: it opens a channel or starts to join -/
  | node
  deriving DecidableEq, Repr

/-- `forward_signal` (group_broadcast.rs 1232-1264). -/
def forward (s : State) : Place :=
  match s.reg with
  | none => .kernel
  | some n =>
    match s.hs[n]? with
    | some h => if h.recv then .stream n else .nowhere
    | none => .nowhere

/-- `setup_group_channel_endpoints` (rekey_and_groups.rs 238-271) as `create_group_channel` calls it (1054-1073). -/
def openChannel (s : State) : State :=
  if s.reg.isSome then { s with dead := true }
  else { s with reg := some s.hs.length, hs := s.hs ++ [{}] }

/-- The client's part of `process_group_broadcast`. -/
def handle (s : State) : Sig → State × Place
  | .createResp true => (openChannel s, .node)
  | .createResp false => (s, .kernel)
  | .acceptResp ok =>
    if ok && !s.owner then
      if s.cgka then (s, .node)
      else ({ s with cgka := true, up := s.up ++ [.keyPackage] }, .node)
    else (s, forward s)
  | .endResp _ => ({ s with reg := none }, forward s)
  | .leaveResp _ => ({ s with reg := none }, forward s)
  | .disconnected => ({ s with reg := none }, forward s)
  | .welcome => if s.cgka then (openChannel s, .node) else ({ s with dead := true }, .node)
  | .other _ => (s, forward s)

/-- The client takes the next packet from the stream. -/
def receive (s : State) : State × Option (Sig × Place) :=
  if s.dead then (s, none)
  else
    match s.down with
    | [] => (s, none)
    | g :: rest =>
      let r := handle { s with down := rest } g
      (r.1, some (g, r.2))

/-- The server's part of `process_group_broadcast`. `End` and `Kick` of one who is not the owner are ignored
(`permission_gate`, 1267-1274). -/
def serveReq (s : State) : Req → State
  | .create =>
    if s.owner then
      if s.ex then { s with down := s.down ++ [.createResp false] }
      else { s with ex := true, mem := true, pend := false, down := s.down ++ [.createResp true] }
    else s
  | .requestJoin =>
    if s.ex then
      if s.isPublic then { s with pend := true, mem := true, down := s.down ++ [.acceptResp true] }
      else { s with pend := true }
    else { s with down := s.down ++ [.other 0] }
  | .accept =>
    if s.ex && s.pend then { s with pend := false, mem := true, down := s.down ++ [.acceptResp true] }
    else { s with down := s.down ++ [.acceptResp false] }
  | .leave =>
    if s.ex then { s with mem := false, down := s.down ++ [.leaveResp true] }
    else { s with down := s.down ++ [.leaveResp false] }
  | .endIt =>
    if s.owner then
      { s with ex := false, mem := false, pend := false, down := s.down ++ [.endResp s.ex] }
    else s
  | .kick self =>
    if s.owner then
      { s with mem := if self then false else s.mem, down := s.down ++ [.other 0] }
    else s
  | .other x => { s with down := s.down ++ [.other x] }
  | .keyPackage => { s with kps := s.kps + 1 }

def serve (s : State) : State :=
  match s.up with
  | [] => s
  | r :: rest => serveReq { s with up := rest } r

/-- `permission_gate` of the sending half (group_channel.rs 247-253). -/
def gate (s : State) : Req → Bool
  | .endIt => s.owner
  | .kick _ => s.owner
  | .leave => true
  | .other _ => true
  | _ => false

/-- Put a request into the queue of channel `n` if there is room. -/
def put (s : State) (n : Nat) (r : Req) : State :=
  match s.hs[n]? with
  | none => s
  | some h => if h.q.length < s.cap then { s with hs := s.hs.set n { h with q := h.q ++ [r] } } else s

/-- A method of the sending half of channel `n` (150-245); `send` waits for room. -/
def ask (s : State) (n : Nat) (r : Req) : State := if gate s r then put s n r else s

/-- `Drop` of the receiving half of channel `n` (276-290): `try_send` of a `LeaveRoom`. -/
def dropRecv (s : State) (n : Nat) : State :=
  match s.hs[n]? with
  | none => s
  | some h => if h.recv then put { s with hs := s.hs.set n { h with recv := false } } n .leave else s

/-- The task of channel `n` takes a request and sends it (session.rs 2065-2080). -/
def pump (s : State) (n : Nat) : State :=
  if s.dead then s
  else
    match s.hs[n]? with
    | none => s
    | some h =>
      match h.q with
      | [] => s
      | r :: rest => { s with hs := s.hs.set n { h with q := rest }, up := s.up ++ [r] }

inductive Act
  /-- the user sends `Create` (an owner), which makes the entry of `group_cgka` (group_hierarchy_outbound.rs 14-29) -/
  | create
  /-- the user sends `RequestJoin` or `AcceptMembership` -/
  | requestJoin
  | accept
  | ask (n : Nat) (r : Req)
  | dropRecv (n : Nat)
  | pump (n : Nat)
  | serve
  | receive
  /-- the owner creates the group / ends it / loses its session (`on_session_shutdown`, peer_layer.rs 180-195) -/
  | ownerCreate
  | ownerEnd
  | ownerGone
  /-- the owner invites the client; lets in one who asked (`AcceptMembership` of the owner, whose answer goes to the owner);
  kicks it -/
  | invite
  | letIn
  | kick
  /-- the owner handles a key package of the client and sends the Welcome (1117-1185) -/
  | welcome
  /-- somebody sends a signal to the members -/
  | post (x : Nat)
  deriving DecidableEq, Repr

def stepState (s : State) : Act → State
  | .create => if s.owner && !s.dead then { s with cgka := true, up := s.up ++ [.create] } else s
  | .requestJoin => if s.owner || s.dead then s else { s with up := s.up ++ [.requestJoin] }
  | .accept => if s.owner || s.dead then s else { s with up := s.up ++ [.accept] }
  | .ask n r => ask s n r
  | .dropRecv n => dropRecv s n
  | .pump n => pump s n
  | .serve => serve s
  | .receive => (receive s).1
  | .ownerCreate => if s.owner || s.ex then s else { s with ex := true, mem := false, pend := false }
  | .ownerEnd =>
    if s.owner || !s.ex then s
    else { s with ex := false, mem := false, pend := false,
                  down := if s.mem then s.down ++ [.disconnected] else s.down }
  | .ownerGone => if s.owner then s else { s with ex := false, mem := false, pend := false, kps := 0 }
  | .invite => if s.owner || !s.ex then s else { s with pend := true, down := s.down ++ [.other 0] }
  | .letIn =>
    if s.owner || !s.ex || !s.pend then s
    else { s with pend := false, mem := true, down := s.down ++ [.other 0] }
  | .kick =>
    if s.owner || !s.ex || !s.mem then s
    else { s with mem := false, down := s.down ++ [.disconnected] }
  | .welcome =>
    if s.owner || s.kps = 0 then s else { s with kps := s.kps - 1, down := s.down ++ [.welcome] }
  | .post x => if s.ex && s.mem then { s with down := s.down ++ [.other x] } else s

/-- One step, and what the client received in it. -/
def step (s : State) (a : Act) : State × Option (Sig × Place) :=
  (stepState s a, if a = .receive then (receive s).2 else none)

def run (s : State) : List Act → State
  | [] => s
  | a :: as => run (step s a).1 as

/-- What the client received in a run, in order. -/
def log (s : State) : List Act → List (Sig × Place)
  | [] => []
  | a :: as => (step s a).2.toList ++ log (step s a).1 as

end Verif.GroupChan

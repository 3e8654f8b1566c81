/-
Model of the direct streams of a virtual connection between peers: which of two streams is kept, what happens when one
ends, and who is told that the connection is gone.
Sources: /repo/citadel_proto/src/proto/state_container/virtual_connections.rs lines 48-125
(`insert_direct_p2p_connection`) and 300-325 (the end of `create_virtual_connection`);
/repo/citadel_proto/src/proto/peer/p2p_conn_handler.rs lines 88-105 (`Drop`), 204-477 (`handle_p2p_stream`);
/repo/citadel_proto/src/proto/misc/wasm_p2p.rs lines 240-318 (`on_datachannel_established`);
/repo/citadel_proto/src/proto/state_container/mod.rs lines 377-406 (`Drop` of `VirtualConnection`);
/repo/citadel_proto/src/proto/session.rs lines 997-1066 (`handle_session_terminating_error`), 2122-2170
(`dispatch_peer_command`, `Disconnect`);
/repo/citadel_proto/src/proto/packet_processor/peer/peer_cmd_packet.rs lines 139-190 (`Disconnect` at a client),
1505-1584 (`Disconnect` at the server);
/repo/citadel_proto/src/proto/session_manager.rs lines 1279-1317 (`disconnect_virtual_conn`);
/repo/citadel_proto/src/proto/packet_processor/primary_group_packet.rs lines 486-523 (`get_orientation_safe_ratchet`);
/repo/citadel_proto/src/proto/disconnect_tracker.rs lines 82-102;
/repo/citadel_proto/src/proto/peer/channel.rs lines 312-358 (`Drop` of `PeerChannelRecvHalf`).

A client keeps everything under the cid of the peer, and no function below touches the entry of another peer: the model
has the entries of one peer (`Node`).  The functions hold the lock of the state container for their effect on it, so
each is one step; the tasks that are spawned run at any later time.  Sends to the kernel and to the server succeed.

Left out: UDP channels, `peer_kem_states` and `outgoing_peer_connect_attempts` (see `Verif.PeerKex`), the bytes of the
streams.
-/
namespace Verif.PeerDrop

/-- `VirtualConnection` with its `EndpointChannelContainer`. -/
structure VConn where
  /-- `p2p_connection_id`. -/
  id : Nat
  /-- The latest version of the ratchet, and the oldest one that is still held. -/
  ver : Nat := 0
  old : Nat := 0
  active : Bool := true
  /-- `direct_p2p_remote`: the number of the stream and `from_listener`. -/
  remote : Option (Nat × Bool) := none
  /-- `p2p_disconnect_notifier` is there. -/
  notifier : Bool := false
deriving DecidableEq, Repr

/-- The future of a direct stream, as long as it runs. -/
structure Strm where
  n : Nat
  listener : Bool
  /-- `cleanup_connection_id`. -/
  id : Nat
  /-- The stopper has been sent. -/
  stopped : Bool := false
  /-- The reader has ended with an error, and `handle_session_terminating_error` was called. -/
  failed : Bool := false
deriving DecidableEq, Repr

/-- A `PeerSignal::Disconnect` that the kernel gets, by its sender. -/
inductive Ev where
  /-- The task of `handle_p2p_stream`, with the id in the token. -/
  | notified (id : Nat)
  /-- `handle_session_terminating_error`, for stream `n`.  Its token has the ticket of the session as connection id. -/
  | failed (n : Nat)
  /-- The handler of the signal of the server. -/
  | server
  /-- `dispatch_peer_command`: "Peer session already disconnected". -/
  | already
deriving DecidableEq, Repr

structure Node where
  /-- `session_cid` (0 for none) and the cid of the peer. -/
  me : Nat
  peer : Nat
  /-- The build for browsers, whose streams are data channels. -/
  wasm : Bool := false
  vconn : Option VConn := none
  /-- `stale_p2p_ratchets`: connection and version of the ratchet. -/
  stale : Option (Nat × Nat) := none
  /-- `p2p_sent` of the `DisconnectSignalTracker` has the pair of session ticket and peer. -/
  mark : Bool := false
  streams : List Strm := []
  next : Nat := 0
  /-- Signals of notifiers whose task has not run yet. -/
  tasks : List Nat := []
  /-- Commands `Disconnect` of dropped channels that have not been dispatched yet. -/
  cmds : List Nat := []
  told : List Ev := []
  /-- The connections inserted so far, newest first (not in the code). -/
  made : List Nat := []
deriving DecidableEq, Repr

def tell (s : Node) (e : Ev) : Node := { s with told := s.told ++ [e] }

/-- `should_be_listener`, virtual_connections.rs line 69. -/
def shouldListen (me peer : Nat) : Bool := decide (me ≠ 0) && decide (me < peer)

/-- What `insert_direct_p2p_connection` does with a stream, lines 58-104. -/
inductive Choice where
  | discard
  | replace
deriving DecidableEq, Repr

/-- `existing` is `from_listener` of the stream there is, if any. -/
def choose (me peer : Nat) (existing : Option Bool) (provisional : Bool) : Choice :=
  match existing with
  | none => .replace
  | some e =>
    if e = shouldListen me peer then .discard
    else if provisional = shouldListen me peer then .replace
    else .discard

/-- The sender of a stopper is used or dropped.  The streams of a browser have none (wasm_p2p.rs line 261). -/
def stop (s : Node) (n : Nat) : Node :=
  if s.wasm then s
  else { s with streams := s.streams.map fun t => if t.n = n then { t with stopped := true } else t }

/-- The stream of a connection is stopped (`Drop` of `DirectP2PRemote`, p2p_conn_handler.rs lines 94-103). -/
def stopOf (s : Node) (v : VConn) : Node :=
  match v.remote with
  | some r => stop s r.1
  | none => s

/-- The entry is taken out of `active_virtual_connections` and dropped (state_container/mod.rs lines 377-406). -/
def remove (s : Node) : Node :=
  match s.vconn with
  | none => s
  | some v =>
    { stopOf s v with vconn := none, tasks := if v.notifier then s.tasks ++ [v.id] else s.tasks }

/-- The ratchet of the connection is kept for packets under way. -/
def keep (s : Node) : Node :=
  match s.vconn with
  | none => s
  | some v => { s with stale := some (v.id, v.ver) }

/-- The end of `create_virtual_connection`, virtual_connections.rs lines 300-325.  If it refuses, the channel that it
made is dropped, and that sends the command `Disconnect` with the token of the refused connection. -/
def create (s : Node) (id : Nat) : Node :=
  let put (s : Node) : Node := { remove s with vconn := some { id := id }, stale := none, made := id :: s.made }
  match s.vconn with
  | some v => if v.active then { s with cmds := s.cmds ++ [id] } else put s
  | none => put s

/-- `handle_p2p_stream` up to the spawned future (lines 225-311), or `on_datachannel_established`: a stream comes up.
Without a connection it is refused, and nothing is spawned. -/
def openStream (s : Node) (listener : Bool) : Node :=
  match s.vconn with
  | none => { s with next := s.next + 1 }
  | some v =>
    let t : Strm := { n := s.next, listener := listener, id := v.id }
    let mark := if s.wasm then s.mark else false
    match choose s.me s.peer (v.remote.map (·.2)) listener with
    | .discard =>
      { s with
        streams := s.streams ++ [{ t with stopped := !s.wasm }], next := s.next + 1, mark := mark }
    | .replace =>
      { stopOf s v with
        vconn := some { v with remote := some (s.next, listener), notifier := v.notifier || !s.wasm },
        streams := (stopOf s v).streams ++ [t], next := s.next + 1, mark := mark }

def findStream (s : Node) (n : Nat) : Option Strm := s.streams.find? (·.n == n)

def dropStream (s : Node) (n : Nat) : Node := { s with streams := s.streams.filter (·.n != n) }

/-- The stopper wins the `select!`: no cleanup (p2p_conn_handler.rs lines 404-412). -/
def stopStream (s : Node) (n : Nat) : Node :=
  match findStream s n with
  | some t => if t.stopped then dropStream s n else s
  | none => s

/-- The cleanup after reader or writer ended, lines 418-471; in a browser, wasm_p2p.rs lines 304-313. -/
def cleanup (s : Node) (t : Strm) : Node :=
  match s.vconn with
  | none => s
  | some v => if s.wasm || v.id == t.id then remove (keep s) else s

/-- Reader or writer wins the `select!`. -/
def endStream (s : Node) (n : Nat) : Node :=
  match findStream s n with
  | some t => cleanup (dropStream s n) t
  | none => s

/-- The reader ends with an error: `handle_session_terminating_error`, session.rs lines 1020-1050.  The cleanup comes
after it. -/
def failStream (s : Node) (n : Nat) : Node :=
  match findStream s n with
  | some t =>
    if t.failed then s
    else
      let s' : Node :=
        { s with streams := s.streams.map fun u => if u.n = n then { u with failed := true } else u }
      if s'.mark then s' else tell { s' with mark := true } (.failed n)
  | none => s

/-- The task that waits for the notifier, p2p_conn_handler.rs lines 307-389; the second value is the signal for the
server, with its token. -/
def runTask (s : Node) (i : Nat) : Node × Option Nat :=
  match s.tasks[i]? with
  | none => (s, none)
  | some id =>
    let s := { s with tasks := s.tasks.eraseIdx i }
    if s.mark then (s, none)
    else
      let s := { s with mark := true }
      match s.vconn with
      | some v => if v.id ≠ id then (s, none) else (tell s (.notified id), some id)
      | none => (tell s (.notified id), some id)

/-- The signal `Disconnect` from the server, peer_cmd_packet.rs lines 139-190. -/
def onServer (s : Node) (token : Option Nat) : Node :=
  let go (s : Node) : Node := tell (remove (keep s)) .server
  match token, s.vconn with
  | some id, some v => if v.id ≠ id then s else go s
  | _, _ => go s

/-- The channel of connection `id` is dropped, channel.rs lines 312-358.  `is_alive` is the flag `is_active` of its
connection. -/
def dropChannel (s : Node) (id : Nat) : Node :=
  let s := { s with cmds := s.cmds ++ [id] }
  match s.vconn with
  | some v => if v.id = id then { s with vconn := some { v with active := false } } else s
  | none => s

/-- `dispatch_peer_command`, session.rs lines 2122-2170, for the command at place `i`; the second value is the signal
for the server. -/
def runCmd (s : Node) (i : Nat) : Node × Option Nat :=
  match s.cmds[i]? with
  | none => (s, none)
  | some id =>
    let s := { s with cmds := s.cmds.eraseIdx i }
    match s.vconn with
    | some v => if v.id ≠ id then (s, none) else (s, some id)
    | none => (tell s .already, none)

/-- A re-key: a new version, and perhaps older ones are let go. -/
def rekey (s : Node) (old : Nat) : Node :=
  match s.vconn with
  | some v => { s with vconn := some { v with ver := v.ver + 1, old := min (max old v.old) (v.ver + 1) } }
  | none => s

/-- The client session ends (`end_connections`, virtual_connections.rs line 35). -/
def endSession (s : Node) : Node := remove s

/-- `get_orientation_safe_ratchet` for a packet of the peer, primary_group_packet.rs lines 491-523: connection and
version of the ratchet. -/
def ratchetFor (s : Node) (version : Nat) : Option (Nat × Nat) :=
  match s.vconn with
  | some v => if v.old ≤ version ∧ version ≤ v.ver then some (v.id, version) else none
  | none =>
    match s.stale with
    | some r => if r.2 = version then some r else none
    | none => none

inductive Act where
  | create (id : Nat)
  | openStream (listener : Bool)
  | stopStream (n : Nat)
  | endStream (n : Nat)
  | failStream (n : Nat)
  | runTask (i : Nat)
  | onServer (token : Option Nat)
  | dropChannel (id : Nat)
  | runCmd (i : Nat)
  | rekey (old : Nat)
  | endSession
deriving DecidableEq, Repr

/-- One step of a client; the second value is a signal `Disconnect` for the server. -/
def step (s : Node) : Act → Node × Option Nat
  | .create id => (create s id, none)
  | .openStream l => (openStream s l, none)
  | .stopStream n => (stopStream s n, none)
  | .endStream n => (endStream s n, none)
  | .failStream n => (failStream s n, none)
  | .runTask i => runTask s i
  | .onServer k => (onServer s k, none)
  | .dropChannel id => (dropChannel s id, none)
  | .runCmd i => runCmd s i
  | .rekey o => (rekey s o, none)
  | .endSession => (endSession s, none)

def run (s : Node) : List Act → Node
  | [] => s
  | a :: as => run (step s a).1 as

/-! ### Two clients and the server -/

/-- Signals `Disconnect` under way.  They may arrive in any order: the handlers of packets run concurrently. -/
structure Net where
  a : Node
  b : Node
  /-- `is_active` of the entries at the server, from the session of either client to the other. -/
  sa : Option Bool := none
  sb : Option Bool := none
  /-- From the clients to the server, from the server to the clients. -/
  ua : List (Option Nat) := []
  ub : List (Option Nat) := []
  da : List (Option Nat) := []
  db : List (Option Nat) := []
deriving DecidableEq, Repr

inductive Move where
  /-- A step of a client, but for signals of the server (`true` for `a`). -/
  | act (atA : Bool) (x : Act)
  /-- The server makes its entries (`insert_new_virtual_connection_as_server`). -/
  | link
  /-- The server handles the signal at a place of the queue of a client. -/
  | serve (ofA : Bool) (i : Nat)
  /-- A client handles the signal at a place of its queue. -/
  | deliver (toA : Bool) (i : Nat)
deriving DecidableEq, Repr

def up (o : Option Nat) : List (Option Nat) :=
  match o with
  | some id => [some id]
  | none => []

/-- `Disconnect` at the server, peer_cmd_packet.rs lines 1505-1584: the other side is told if both entries are there,
the sender always gets an answer; neither has a token. -/
def serveA (w : Net) (i : Nat) : Net :=
  match w.ua[i]? with
  | none => w
  | some _ =>
    let w := { w with ua := w.ua.eraseIdx i, da := w.da ++ [none] }
    match w.sa with
    | none => w
    | some _ =>
      match w.sb with
      | none => { w with sa := some false }
      | some _ => { w with sa := some false, sb := some false, db := w.db ++ [none] }

def serveB (w : Net) (i : Nat) : Net :=
  match w.ub[i]? with
  | none => w
  | some _ =>
    let w := { w with ub := w.ub.eraseIdx i, db := w.db ++ [none] }
    match w.sb with
    | none => w
    | some _ =>
      match w.sa with
      | none => { w with sb := some false }
      | some _ => { w with sb := some false, sa := some false, da := w.da ++ [none] }

def move (w : Net) : Move → Net
  | .act true x =>
    match x with
    | .onServer _ => w
    | x => { w with a := (step w.a x).1, ua := w.ua ++ up (step w.a x).2 }
  | .act false x =>
    match x with
    | .onServer _ => w
    | x => { w with b := (step w.b x).1, ub := w.ub ++ up (step w.b x).2 }
  | .link => { w with sa := some true, sb := some true }
  | .serve true i => serveA w i
  | .serve false i => serveB w i
  | .deliver true i =>
    match w.da[i]? with
    | none => w
    | some k => { w with da := w.da.eraseIdx i, a := onServer w.a k }
  | .deliver false i =>
    match w.db[i]? with
    | none => w
    | some k => { w with db := w.db.eraseIdx i, b := onServer w.b k }

def moves (w : Net) : List Move → Net
  | [] => w
  | m :: ms => moves (move w m) ms

end Verif.PeerDrop

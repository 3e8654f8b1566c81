/-
Model of what a session does with a datagram of one of its UDP sockets, and with a packet of its
streams that is meant for somebody else.

Sources (all under `citadel_proto/src/proto/`):
  * `session.rs` 2260-2317 (`process_inbound_packet_udp`), 1086-1105 (packets of the streams).
  * `packet_processor/raw_primary_packet.rs` 57-100 (`process_raw_packet`), 208-297 (`check_proxy`).
  * `packet_processor/udp_packet.rs` 47-86 (`process_udp_packet`).
  * `packet_processor/primary_group_packet.rs` 565-571 (`get_resp_target_cid_from_header`).
  * `packet_crafter.rs` 1771-1802 (`craft_udp_packet`).
  * `endpoint_crypto_accessor.rs` 38-57 (`borrow_hr`).
  * `state_container/channels.rs` 26-39 (`forward_data_to_unordered_channel`).
  * `state_container/virtual_connections.rs` 111 and 290 (`sender` of a connection: `None` until there
    is a direct stream), 326-350 (connections of a server), 353-362.
  * `outbound_sender.rs` 173-177 (`OutboundUdpSender::unbounded_send`).
  * `misc/native_io_udp.rs` 160-225 (`listen_udp_port`, `udp_outbound_sender`).

Simplifications, all of them stated:
  * authenticated encryption is symbolic: `tag = some (k, v)` says that header and body are valid
    under version `v` of the keys that this node shares with `k` (`0`: the server); nobody without
    these keys can make such a packet;
  * `wire` are the bytes of the whole packet as they came; they are whatever the sender chose;
  * `env` changes the table of connections in any way at all, so that what is proved holds for every
    way of making, upgrading and ending them.
-/

namespace Verif.Udp

abbrev Bytes := List UInt8

structure Packet where
  /-- `cmd_aux` is `STREAM`. -/
  stream : Bool
  /-- `session_cid` of the header. -/
  src : Nat
  /-- `target_cid` of the header. -/
  dst : Nat
  ver : Nat
  tag : Option (Nat × Nat)
  body : Bytes
  wire : Bytes
deriving DecidableEq, Repr

/-- `to_unordered_local_channel`, and whether the program still has the other end. -/
inductive Chan
  | absent
  | open
  | dropped
deriving DecidableEq, Repr

/-- A `VirtualConnection`: the versions of its ratchets, if it has an endpoint container (`none` on a
server that relays); `sender`: a direct stream, with or without a UDP sender; its channel. -/
structure VConn where
  keys : Option (List Nat)
  sender : Option Bool
  chan : Chan
deriving DecidableEq, Repr

structure Node where
  /-- `session_cid`. -/
  me : Option Nat
  conns : Nat → Option VConn
  /-- What the unordered channel of each connection was given. -/
  given : Nat → List Bytes
  /-- What was handed to the UDP sender of each connection, to be sealed and sent. -/
  udpOut : Nat → List Bytes
  /-- What was handed to the direct stream of each connection as it is. -/
  tcpOut : Nat → List Bytes
  /-- The UDP task of each connection runs. -/
  listens : Nat → Bool

def add (f : Nat → List Bytes) (i : Nat) (b : Bytes) : Nat → List Bytes :=
  fun j => if j = i then f j ++ [b] else f j

def off (f : Nat → Bool) (i : Nat) : Nat → Bool := fun j => if j = i then false else f j

/-- What became of a packet. -/
inductive Res
  /-- Dropped without a trace. -/
  | void
  /-- Sent on for somebody else. -/
  | proxied
  /-- Handed to an unordered channel. -/
  | delivered (j : Nat)
  /-- `EndSession`: the UDP task ends. -/
  | ended
  /-- For this node: the handlers of the packets get it. -/
  | here
  /-- `unwrap` of `None`. -/
  | panic
deriving DecidableEq, Repr

/-- The packet is for somebody else (raw_primary_packet.rs 219-229). -/
def elsewhere (s : Node) (p : Packet) : Bool :=
  match s.me with
  | some c => p.dst != 0 && c != p.dst
  | none => false

/-- `get_resp_target_cid_from_header`. -/
def resp (p : Packet) : Nat := if p.dst ≠ 0 then p.src else 0

/-- `check_proxy` of a packet for somebody else, from a UDP socket (272-281). -/
def proxyUdp (s : Node) (p : Packet) : Node × Res :=
  match s.conns p.dst with
  | none => (s, .void)
  | some v =>
    match v.sender with
    | none => (s, .panic)
    | some false => (s, .void)
    | some true => ({ s with udpOut := add s.udpOut p.dst p.wire }, .proxied)

/-- The same from a stream (248-270). -/
def proxyTcp (s : Node) (p : Packet) : Node × Res :=
  match s.conns p.dst with
  | none => (s, .void)
  | some v =>
    match v.sender with
    | none => (s, .panic)
    | some _ => ({ s with tcpOut := add s.tcpOut p.dst p.wire }, .proxied)

/-- The ratchet of the connection `k` opens the packet (`borrow_hr`, `validate_custom`). -/
def opens (s : Node) (k : Nat) (p : Packet) : Bool :=
  match s.conns k with
  | some v =>
    match v.keys with
    | some vs => vs.contains p.ver && p.tag == some (k, p.ver)
    | none => false
  | none => false

/-- `forward_data_to_unordered_channel`. -/
def takes (s : Node) (j : Nat) : Bool :=
  match s.conns j with
  | some v => v.keys.isSome && v.chan == .open
  | none => false

/-- `process_udp_packet` of the UDP task of connection `k`. -/
def processUdp (s : Node) (k : Nat) (p : Packet) : Node × Res :=
  if opens s k p then
    if takes s (resp p) then
      ({ s with given := add s.given (resp p) p.body }, .delivered (resp p))
    else (s, .ended)
  else (s, .void)

/-- `process_inbound_packet_udp`. -/
def inbound (s : Node) (k : Nat) (p : Packet) : Node × Res :=
  if p.stream = false then (s, .void)
  else if elsewhere s p then proxyUdp s p
  else processUdp s k p

/-- `listen_udp_port`: an error or a panic ends the task. -/
def recvUdp (s : Node) (k : Nat) (p : Packet) : Node × Res :=
  if s.listens k = true then
    match inbound s k p with
    | (t, .ended) => ({ t with listens := off t.listens k }, .ended)
    | (t, .panic) => ({ t with listens := off t.listens k }, .panic)
    | r => r
  else (s, .void)

/-- `process_raw_packet`, up to the choice of the handler. -/
def recvTcp (s : Node) (p : Packet) : Node × Res :=
  if elsewhere s p then proxyTcp s p else (s, .here)

/-- `OutboundUdpSender::unbounded_send` of the program. -/
def write (s : Node) (j : Nat) (b : Bytes) : Node := { s with udpOut := add s.udpOut j b }

/-- `craft_udp_packet`: the node `me` seals a body for connection `j`; `k` is the name under which
the other end knows this node (`0` when it is the server). -/
def craft (me j k ver : Nat) (b : Bytes) : Packet :=
  { stream := true, src := me, dst := j, ver := ver, tag := some (k, ver), body := b, wire := b }

inductive Act
  | udp (k : Nat) (p : Packet)
  | tcp (p : Packet)
  | write (j : Nat) (b : Bytes)
  | env (conns : Nat → Option VConn) (listens : Nat → Bool)

def step (s : Node) : Act → Node
  | .udp k p => (recvUdp s k p).1
  | .tcp p => (recvTcp s p).1
  | .write j b => write s j b
  | .env c l => { s with conns := c, listens := l }

def run (s : Node) (as : List Act) : Node := as.foldl step s

/-- A session before any packet. -/
def start (me : Option Nat) : Node :=
  { me := me, conns := fun _ => none, given := fun _ => [], udpOut := fun _ => [],
    tcpOut := fun _ => [], listens := fun _ => false }

end Verif.Udp

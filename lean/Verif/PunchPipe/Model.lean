/-
Model of the pipes that bring hole-punch packets to the hole puncher over the primary stream.

Sources under /repo/citadel_proto/src/proto: peer/hole_punch_compat_sink_stream.rs 45-130; packet_processor/hole_punch.rs 40-86;
packet_processor/primary_group_packet.rs 485-537 (`get_orientation_safe_ratchet`) and 565-571
(`get_resp_target_cid_from_header`); packet_crafter.rs 1814-1844; packet_processor/peer/peer_cmd_packet.rs 582-676 and 781-867
(a connection is made and its pipe registered under one lock); packet_processor/preconnect_packet.rs 205-283 and 317-371 (the
pipe of the session itself); state_container/mod.rs 194-196; misc/native_io_platform.rs 59-165 (who drops the stream).

Simplifications: keys are numbered by connection, and a packet can be read exactly with the ratchet of its connection and
version; of the ratchets of the session itself the version is left out; payloads are numbers. A pipe that is read from is
modelled by everything that was put into it.
-/
namespace Verif.PunchPipe

/-- A virtual connection: its number, and the versions of its ratchets that are there. -/
structure VC where
  id : Nat
  old : Nat := 0
  ver : Nat := 0
  /-- `is_active` -/
  active : Bool := true
  deriving DecidableEq, Repr

/-- A `ReliableOrderedCompatStream`. -/
structure Pipe where
  /-- `target_cid`, 0 for the session itself -/
  key : Nat
  /-- the connection whose first ratchet is `hr` -/
  conn : Nat
  /-- the receiver has not been dropped -/
  live : Bool := true
  /-- what was put into it -/
  got : List Nat := []
  deriving DecidableEq, Repr

/-- A hole-punch packet: `session_cid` and `target_cid` of its header, the connection and version whose key protects it. -/
structure Pkt where
  src : Nat
  dst : Nat
  conn : Nat
  ver : Nat := 0
  body : Nat
  deriving DecidableEq, Repr

structure Node where
  /-- `active_virtual_connections` and `stale_p2p_ratchets` (connection, version), by peer -/
  vconn : Nat → Option VC := fun _ => none
  stale : Nat → Option (Nat × Nat) := fun _ => none
  /-- the keys of the session itself, once there are any (`generated_ratchet`, then the endpoint container) -/
  c2s : Option Nat := none
  /-- `hole_puncher_pipes` and `pending_hole_punch_packets` -/
  pipes : Nat → Option Nat := fun _ => none
  pending : Nat → List Nat := fun _ => []
  /-- every pipe that was made -/
  all : List Pipe := []

def put (f : Nat → α) (k : Nat) (x : α) : Nat → α := fun j => if j = k then x else f j

/-- `send_to_peer` of a pipe of the node with cid `me`, with `generate_packet`. -/
def packetOf (me : Nat) (p : Pipe) (body : Nat) : Pkt := { src := me, dst := p.key, conn := p.conn, body := body }

/-- `get_resp_target_cid_from_header`. -/
def respCid (p : Pkt) : Nat := if p.dst ≠ 0 then p.src else 0

/-- `get_orientation_safe_ratchet`: whether the packet can be read (`validate_custom`). -/
def readable (s : Node) (p : Pkt) : Bool :=
  if p.dst ≠ 0 then
    match s.vconn p.src with
    | some v => v.old ≤ p.ver && p.ver ≤ v.ver && v.id == p.conn
    | none =>
      match s.stale p.src with
      | some r => r.2 == p.ver && r.1 == p.conn
      | none => false
  else s.c2s == some p.conn

/-- `UnboundedSender::send` on pipe `n`. -/
def send (l : List Pipe) (n : Nat) (xs : List Nat) : List Pipe :=
  match l[n]? with
  | some p => if p.live then l.set n { p with got := p.got ++ xs } else l
  | none => l

/-- `process_hole_punch`. -/
def receive (s : Node) (p : Pkt) : Node :=
  if readable s p then
    match s.pipes (respCid p) with
    | some n => { s with all := send s.all n [p.body] }
    | none => { s with pending := put s.pending (respCid p) (s.pending (respCid p) ++ [p.body]) }
  else s

/-- `ReliableOrderedCompatStream::new`. -/
def openPipe (s : Node) (key conn : Nat) : Node :=
  { s with
    pipes := put s.pipes key (some s.all.length)
    pending := put s.pending key []
    all := s.all ++ [{ key := key, conn := conn, got := s.pending key }] }

/-- A connection with peer `k` is made, if none is active (`create_virtual_connection`), and its pipe registered. -/
def create (s : Node) (k id : Nat) : Node :=
  if k = 0 then s
  else
    match s.vconn k with
    | some v =>
      if v.active then s
      else openPipe { s with vconn := put s.vconn k (some { id := id }), stale := put s.stale k none } k id
    | none => openPipe { s with vconn := put s.vconn k (some { id := id }), stale := put s.stale k none } k id

inductive Act
  /-- the session has its keys -/
  | keys (c : Nat)
  /-- the pipe of the session itself is made (SYN_ACK at the client, STAGE0 at the server) -/
  | openOwn
  | create (k id : Nat)
  /-- the channel of the connection with `k` is dropped: `is_active` becomes false -/
  | idle (k : Nat)
  /-- the connection with `k` is removed; whether its ratchet is kept as stale -/
  | gone (k : Nat) (keep : Bool)
  /-- a re-key of the connection with `k`, after which versions from `old` on are there -/
  | rekey (k old : Nat)
  /-- the hole puncher ends or times out, and drops its pipe -/
  | drop (n : Nat)
  | packet (p : Pkt)
  deriving DecidableEq, Repr

def step (s : Node) : Act → Node
  | .keys c => if s.c2s.isSome then s else { s with c2s := some c }
  | .openOwn =>
    match s.c2s with
    | some c => openPipe s 0 c
    | none => s
  | .create k id => create s k id
  | .idle k =>
    match s.vconn k with
    | some v => { s with vconn := put s.vconn k (some { v with active := false }) }
    | none => s
  | .gone k keep =>
    match s.vconn k with
    | some v =>
      { s with
        vconn := put s.vconn k none
        stale := if keep then put s.stale k (some (v.id, v.ver)) else s.stale }
    | none => s
  | .rekey k old =>
    match s.vconn k with
    | some v => { s with vconn := put s.vconn k (some { v with ver := v.ver + 1, old := min (max old v.old) (v.ver + 1) }) }
    | none => s
  | .drop n =>
    match s.all[n]? with
    | some p => { s with all := s.all.set n { p with live := false } }
    | none => s
  | .packet p => receive s p

def run (s : Node) : List Act → Node
  | [] => s
  | a :: as => run (step s a) as

end Verif.PunchPipe

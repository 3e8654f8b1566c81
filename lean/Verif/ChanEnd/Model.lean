/-
Model of the receiving halves of the channels of a virtual connection: the ordered channel, the
unordered (UDP) channel that shares its flag, and the adaptor to the `Conn` trait of the WebRTC
library.

Sources (all under `citadel_proto/src/proto/`):
  * `peer/channel.rs` 82-125 (`PeerChannel::new`), 236-287 (`PeerChannelRecvHalf`, `ReceiverType`),
    298-310 (`poll_next`), 312-358 (`Drop`), 366-391 (`UdpChannel::new`), 436-447 (`recv` of the
    WebRTC adaptor).
  * `state_container/channels.rs` 26-35 (`forward_data_to_unordered_channel`), 41-90
    (`insert_udp_channel`), 92-104 (`remove_udp_channel`).
  * `state_container/mod.rs` 377-379 (`Drop` of `VirtualConnection`).
  * `session_manager.rs` 616 and 1304 (the flag is cleared while the connection is in its table).

Simplifications, all of them stated:
  * the messenger between the ordered channel and its receiver (area `Messenger`, `Ordered`) is a
    queue; what is handed to the queue is what the messenger has finished with;
  * the unordered channel is opened at most once for a connection;
  * wakers are left out: a step polls, or does not.
-/

namespace Verif.ChanEnd

/-- A message: the bytes of a `SecBuffer`. -/
abbrev Msg := List UInt8

/-- `vconn_type`: between peers (`LocalGroupPeer`), or between a client and its server. -/
inductive Kind
  | peer
  | server
deriving DecidableEq, Repr

/-- The command that `Drop` of a receiving half sends to the node (channel.rs 321-352). -/
inductive Cmd
  | disconnect
  | disconnectUdp
deriving DecidableEq, Repr

/-- A queue with a receiving half: `receiver` of `PeerChannelRecvHalf` (channel.rs 238), and whether
its sending ends are gone (`closed`) and whether the program still has the half (`held`). -/
structure Half where
  queue : List Msg
  closed : Bool
  held : Bool
deriving DecidableEq, Repr

/-- What a poll gives: `Poll::Ready(Some(_))`, `Poll::Ready(None)`, `Poll::Pending`. -/
inductive Polled
  | item (m : Msg)
  | done
  | pending
deriving DecidableEq, Repr

/-- `unbounded_send`: refused when the receiver is dropped; impossible when the sender is gone. -/
def Half.push (h : Half) (m : Msg) : Half :=
  if h.held = true ∧ h.closed = false then { h with queue := h.queue ++ [m] } else h

/-- `ReceiverType::poll_next` (channel.rs 255-280): what is queued comes first, the end after it. -/
def Half.next (h : Half) : Polled × Half :=
  match h.queue with
  | m :: q => (.item m, { h with queue := q })
  | [] => if h.closed = true then (.done, h) else (.pending, h)

/-- `PeerChannelRecvHalf::poll_next` (channel.rs 301-310): the flag is looked at first. -/
def Half.poll (alive : Bool) (h : Half) : Polled × Half :=
  if alive = false then (.done, h) else h.next

/-- Dropping the half drops its queue. -/
def Half.drop (h : Half) : Half := { h with queue := [], held := false }

/-- The channels of one connection: `alive` is the flag `is_active` of the virtual connection and
`is_alive` of both halves (one `Arc`, virtual_connections.rs 212, 259, 289; channels.rs 70); `conn`: the
virtual connection is in its table. -/
structure State where
  kind : Kind
  alive : Bool
  conn : Bool
  ord : Half
  udp : Half
  udpMade : Bool
  cmds : List Cmd
deriving DecidableEq, Repr

/-- A connection just made: no unordered channel yet (`to_unordered_local_channel: None`,
virtual_connections.rs 275). -/
def init (k : Kind) : State :=
  { kind := k, alive := true, conn := true,
    ord := { queue := [], closed := false, held := true },
    udp := { queue := [], closed := true, held := false },
    udpMade := false, cmds := [] }

inductive Act
  /-- The messenger hands a message to the ordered channel. -/
  | ordIn (m : Msg)
  /-- `forward_data_to_unordered_channel`. -/
  | udpIn (m : Msg)
  /-- `insert_udp_channel`. -/
  | openUdp
  /-- `remove_udp_channel`. -/
  | closeUdp
  /-- The flag is cleared, the connection stays in its table for now. -/
  | deactivate
  /-- The virtual connection is removed and dropped. -/
  | remove
  /-- The program polls the ordered channel. -/
  | pollOrd
  /-- The program polls the unordered channel. -/
  | pollUdp
  /-- The WebRTC library calls `recv` with a buffer of `n` bytes. -/
  | recv (n : Nat)
  /-- The program drops the ordered half. -/
  | dropOrd
  /-- The program drops the unordered half. -/
  | dropUdp
deriving DecidableEq, Repr

/-- What the program sees. -/
inductive Out
  | ord (p : Polled)
  | udp (p : Polled)
  /-- `recv` returned `Ok(len)` and the buffer begins with these bytes. -/
  | recvOk (m : Msg)
  /-- `recv` returned `Err`. -/
  | recvErr
  | recvPending
  /-- `copy_from_slice` panicked. -/
  | recvPanic
deriving DecidableEq, Repr

/-- `recv` (channel.rs 436-447): the receiver is polled itself, without the flag; then
`buf.copy_from_slice(input)`, which panics unless both have the same length. -/
def recvOut (n : Nat) : Polled → Out
  | .item m => if n = m.length then .recvOk m else .recvPanic
  | .done => .recvErr
  | .pending => .recvPending

def step (s : State) : Act → State × List Out
  | .ordIn m => (if s.conn = true then { s with ord := s.ord.push m } else s, [])
  | .udpIn m => (if s.conn = true then { s with udp := s.udp.push m } else s, [])
  | .openUdp =>
    (if s.conn = true ∧ s.udpMade = false then
      { s with udp := { queue := [], closed := false, held := true }, udpMade := true }
     else s, [])
  | .closeUdp =>
    (if s.conn = true then { s with udp := { s.udp with closed := true } } else s, [])
  | .deactivate => (if s.conn = true then { s with alive := false } else s, [])
  | .remove =>
    (if s.conn = true then
      { s with conn := false, alive := false,
               ord := { s.ord with closed := true }, udp := { s.udp with closed := true } }
     else s, [])
  | .pollOrd =>
    if s.ord.held = true then
      ({ s with ord := (s.ord.poll s.alive).2 }, [.ord (s.ord.poll s.alive).1])
    else (s, [])
  | .pollUdp =>
    if s.udp.held = true then
      ({ s with udp := (s.udp.poll s.alive).2 }, [.udp (s.udp.poll s.alive).1])
    else (s, [])
  | .recv n =>
    if s.udp.held = true then ({ s with udp := s.udp.next.2 }, [recvOut n s.udp.next.1])
    else (s, [])
  | .dropOrd =>
    if s.ord.held = true then
      (match s.kind with
        | .peer => { s with ord := s.ord.drop, alive := false, cmds := s.cmds ++ [.disconnect] }
        | .server => { s with ord := s.ord.drop }, [])
    else (s, [])
  | .dropUdp =>
    if s.udp.held = true then
      (match s.kind with
        | .peer => { s with udp := s.udp.drop, cmds := s.cmds ++ [.disconnectUdp] }
        | .server => { s with udp := s.udp.drop }, [])
    else (s, [])

/-- A run: the state it ends in and all that the program saw, in order. -/
def run (s : State) : List Act → State × List Out
  | [] => (s, [])
  | a :: as => ((run (step s a).1 as).1, (step s a).2 ++ (run (step s a).1 as).2)

end Verif.ChanEnd

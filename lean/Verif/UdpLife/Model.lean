/-!
# The life of the unordered channel of two peers

What an endpoint does, for one peer, from the key exchange to the end of the unordered (UDP)
channel.  Sources (citadel_proto/src/proto):

* `packet_processor/peer/peer_cmd_packet.rs:333-350, 493-502` (a key exchange stores a fresh
  `PeerKemStateContainer`, with the two ends of the oneshot by which the program will get the
  channel), `545-650` and `780-850` (the end of the exchange on the two sides);
* `state_container/virtual_connections.rs:48-128` (`insert_direct_p2p_connection`), `280-320`
  (`create_virtual_connection`: an active connection is not replaced);
* `peer/p2p_conn_handler.rs:212-300` (`handle_p2p_stream`);
* `misc/native_io_udp.rs:18-165` (`spawn`, the task of a channel);
* `state_container/channels.rs:41-104` (`insert_udp_channel`, `remove_udp_channel`);
* `peer/channel.rs:311-360` (`Drop` of the receiving half), `session.rs:2170-2196`
  (`dispatch_peer_command`, `DisconnectUDP`).

Simplifications.  Core Lean only.  One peer of one endpoint.  Channels are numbered in the order
in which they are made.  A task whose stopper was used or dropped ends at once.  The connection to
the server stands.  Both peers want UDP.  The channel with the server is not modelled.
-/

namespace Verif.UdpLife

/-- `PeerKemStateContainer`, lines 40-56: the id of the connection, whether the constructor of the
exchange is still there, whether the sending end of the oneshot is still there, and whether the
receiving end has not been dropped. -/
structure Kem where
  id : Nat
  con : Bool
  tx : Bool
  rx : Bool
  deriving DecidableEq, Repr

/-- `VirtualConnection` and its `EndpointChannelContainer`: `p2p_connection_id`, `is_active`,
`direct_p2p_remote` (its `from_listener`; `sender` is `Some` just if it is), the UDP half of
`sender`, `to_unordered_local_channel`. -/
structure Vconn where
  id : Nat
  active : Bool
  direct : Option Bool
  udp : Option Nat
  chan : Option Nat
  deriving DecidableEq, Repr

structure State where
  /-- `should_be_listener` of the tie-breaker. -/
  want : Bool
  kem : Option Kem
  vconn : Option Vconn
  /-- Loaders that were spawned and have not run yet. -/
  pending : Nat
  /-- The number of the next channel. -/
  next : Nat
  /-- The UDP tasks that run. -/
  task : Nat → Bool
  /-- `disconnect_token` of a channel. -/
  token : Nat → Nat
  /-- Receiving halves that the program has. -/
  held : Nat → Bool
  /-- Channels sent through oneshots, with the id of the exchange the oneshot is of. -/
  given : List (Nat × Nat)
  /-- `DisconnectUDP` commands on their way to the session. -/
  queue : List Nat

def set {α : Type} (f : Nat → α) (n : Nat) (b : α) : Nat → α := fun m => if m = n then b else f m

/-- The stopper of a registered channel is used or dropped. -/
def stop (f : Nat → Bool) : Option Nat → Nat → Bool
  | none => f
  | some n => set f n false

/-- A key exchange begins. -/
def kex (s : State) (id : Nat) : State := { s with kem := some ⟨id, true, true, true⟩ }

/-- The end of a key exchange.  `first`: on the side of stage 1, where the entry is taken out of the
table, and put back only if the connection is made; on the other side it stays, but its receiver
is gone. -/
def create (s : State) (first : Bool) : State :=
  match s.kem with
  | none => s
  | some k =>
    if k.con then
      match s.vconn with
      | none =>
        { s with kem := some { k with con := false }, vconn := some ⟨k.id, true, none, none, none⟩ }
      | some v =>
        if v.active then
          if first then { s with kem := none }
          else { s with kem := some { k with con := false, rx := false } }
        else
          { s with
            kem := some { k with con := false }
            vconn := some ⟨k.id, true, none, none, none⟩
            task := stop s.task v.chan }
    else if first then { s with kem := none } else s

/-- `insert_direct_p2p_connection`; `none` is an error. -/
def insertDirect (want : Bool) (v : Vconn) (l : Bool) : Vconn :=
  match v.direct with
  | some e =>
    if e = want then v
    else if l = want then { v with direct := some l, udp := none }
    else v
  | none => { v with direct := some l, udp := none }

/-- `handle_p2p_stream`: a loader is spawned whenever there was no error. -/
def stream (s : State) (l : Bool) : State :=
  match s.vconn with
  | none => s
  | some v => { s with vconn := some (insertDirect s.want v l), pending := s.pending + 1 }

/-- `insert_udp_channel`; the channel that was registered before is dropped. -/
def insertUdp (s : State) : Option State :=
  match s.vconn with
  | none => none
  | some v =>
    if v.direct.isSome then
      some { s with
        vconn := some { v with udp := some s.next, chan := some s.next }
        task := stop s.task v.chan
        token := set s.token s.next v.id
        next := s.next + 1 }
    else none

/-- A channel that nobody took is dropped: its receiving half posts `DisconnectUDP`. -/
def lost (s : State) (n : Nat) : State := { s with queue := s.queue ++ [s.token n] }

/-- The rest of the loader: the channel `n` is registered. -/
def hand (s : State) (n : Nat) : State :=
  match s.kem with
  | none => lost s n
  | some k =>
    if k.tx then
      let s := { s with kem := some { k with tx := false } }
      if k.rx then
        { s with given := s.given ++ [(k.id, n)], held := set s.held n true, task := set s.task n true }
      else lost s n
    else lost s n

/-- A loader runs. -/
def load (s : State) : State :=
  if s.pending = 0 then s
  else
    match insertUdp { s with pending := s.pending - 1 } with
    | none => { s with pending := s.pending - 1 }
    | some t => hand t s.next

/-- `remove_udp_channel`. -/
def removeUdp (s : State) : State :=
  match s.vconn with
  | none => s
  | some v =>
    if v.direct.isSome then
      { s with vconn := some { v with udp := none, chan := none }, task := stop s.task v.chan }
    else s

/-- `dispatch_peer_command` with the `DisconnectUDP` that comes first. -/
def dispatch (s : State) : State :=
  match s.queue with
  | [] => s
  | t :: q =>
    match s.vconn with
    | none => { s with queue := q }
    | some v => if v.id ≠ t then { s with queue := q } else removeUdp { s with queue := q }

/-- The program drops the receiving half of a channel. -/
def dropHalf (s : State) (n : Nat) : State :=
  if s.held n then { s with held := set s.held n false, queue := s.queue ++ [s.token n] } else s

/-- The program drops the receiver of a oneshot. -/
def dropRx (s : State) (id : Nat) : State :=
  match s.kem with
  | none => s
  | some k => if k.id = id then { s with kem := some { k with rx := false } } else s

/-- The socket of a task fails. -/
def fail (s : State) (n : Nat) : State := { s with task := set s.task n false }

/-- The connection is marked inactive. -/
def deactivate (s : State) : State :=
  match s.vconn with
  | none => s
  | some v => { s with vconn := some { v with active := false } }

/-- The connection is removed (`peer_cmd_packet.rs:168-180`, `p2p_conn_handler.rs:427-438`). -/
def close (s : State) : State :=
  let s := removeUdp s
  match s.vconn with
  | none => s
  | some v => { s with vconn := none, task := stop s.task v.chan }

/-- The entry of the key exchange is removed. -/
def forget (s : State) : State := { s with kem := none }

inductive Event where
  | kex (id : Nat) | create (first : Bool) | stream (l : Bool) | load | dispatch
  | dropHalf (n : Nat) | dropRx (id : Nat) | fail (n : Nat) | deactivate | close | forget
  deriving DecidableEq, Repr

def step (s : State) : Event → State
  | .kex id => kex s id
  | .create f => create s f
  | .stream l => stream s l
  | .load => load s
  | .dispatch => dispatch s
  | .dropHalf n => dropHalf s n
  | .dropRx id => dropRx s id
  | .fail n => fail s n
  | .deactivate => deactivate s
  | .close => close s
  | .forget => forget s

def run (s : State) : List Event → State
  | [] => s
  | e :: es => run (step s e) es

def init (want : Bool) : State :=
  ⟨want, none, none, 0, 0, fun _ => false, fun _ => 0, fun _ => false, [], []⟩

end Verif.UdpLife

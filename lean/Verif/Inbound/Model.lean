/-!
# How a session works on the packets that arrive

Sources:

* `citadel_proto/src/proto/session.rs:1075-1120` (`execute_inbound_stream`:
  `try_for_each_concurrent(Some(INBOUND_CONCURRENCY_LIMIT), ..)`);
* `citadel_proto/src/lib.rs:274-278, 492-496` (`to_concurrent_processor!`, which awaits);
* `citadel_proto/src/proto/packet_processor/peer/peer_cmd_packet.rs:738-757, 917-936` (the handlers
  of the last two packets of a key exchange between peers await the whole hole punch);
* `citadel_proto/src/proto/misc/native_io_platform.rs:99-160` (`NetworkEndpoint::register` and the
  hole punch, each with time limits, over packets of the same session);
* `citadel_proto/src/proto/misc/wasm_p2p.rs:12-57, 111-215` (`sig_rx.recv().await`, without a
  time limit; the receiver of cancellations is dropped);
* `citadel_proto/src/proto/packet_processor/peer/peer_cmd_packet.rs:1023-1038` and the processor of
  hole punch packets (they pass a packet on to whoever waits for it).

A packet is taken from the stream when fewer than the limit are being worked on, and it is worked
on until its handler returns.  The handler of a packet that starts a hole punch returns when a
packet of the other side has come, which comes through the same stream.

Simplifications.  Core Lean only.  A hole punch waits for one packet, named by a number.  Handlers
that fail, and with them the stream, are left out.  Handlers that do not wait for packets are
`quick`, also if they wait for the backend.
-/

namespace Verif.Inbound

inductive Work where
  | quick
  /-- Starts a hole punch that needs the packet `token k` of the other side. -/
  | waits (k : Nat)
  | token (k : Nat)
  deriving DecidableEq, Repr

structure Pkt where
  id : Nat
  work : Work
  deriving DecidableEq, Repr

structure State where
  /-- `INBOUND_CONCURRENCY_LIMIT` -/
  limit : Nat
  /-- Whether hole punches have time limits: native nodes do, browsers do not. -/
  timers : Bool
  /-- Arrived and not yet taken from the stream. -/
  wire : List Pkt
  /-- Being worked on. -/
  busy : List Pkt
  /-- Packets of hole punches that were passed on. -/
  tokens : List Nat
  done : List Pkt
  /-- Hole punches that were given up. -/
  lapsed : List Pkt
  /-- What was taken, in order. -/
  begun : List Pkt
  deriving DecidableEq, Repr

inductive Event where
  | arrive (p : Pkt)
  | take
  | finish (p : Pkt)
  | lapse (p : Pkt)
  deriving DecidableEq, Repr

def inboundLimit : Nat := 64

def init (limit : Nat) (timers : Bool) : State := ⟨limit, timers, [], [], [], [], [], []⟩

/-- Whether a handler can return. -/
def ready (s : State) (p : Pkt) : Bool :=
  match p.work with
  | .quick => true
  | .waits k => s.tokens.contains k
  | .token _ => true

def arrive (s : State) (p : Pkt) : State := { s with wire := s.wire ++ [p] }

/-- One poll of the stream under `try_for_each_concurrent`. -/
def take (s : State) : State :=
  if s.busy.length < s.limit then
    match s.wire with
    | [] => s
    | p :: w =>
      { s with
        wire := w
        busy := s.busy ++ [p]
        begun := s.begun ++ [p] }
  else s

/-- What the handler of a packet passes on. -/
def passed : Work → List Nat
  | .token k => [k]
  | _ => []

def finish (s : State) (p : Pkt) : State :=
  if p ∈ s.busy ∧ ready s p = true then
    { s with
      busy := s.busy.erase p
      tokens := s.tokens ++ passed p.work
      done := s.done ++ [p] }
  else s

def isWait : Work → Bool
  | .waits _ => true
  | _ => false

/-- A time limit of a hole punch. -/
def lapse (s : State) (p : Pkt) : State :=
  if s.timers = true ∧ p ∈ s.busy ∧ isWait p.work = true then
    { s with
      busy := s.busy.erase p
      lapsed := s.lapsed ++ [p] }
  else s

def step (s : State) : Event → State
  | .arrive p => arrive s p
  | .take => take s
  | .finish p => finish s p
  | .lapse p => lapse s p

def run (s : State) : List Event → State
  | [] => s
  | e :: es => run (step s e) es

end Verif.Inbound

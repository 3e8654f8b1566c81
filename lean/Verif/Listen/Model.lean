/-!
# How connections come to a server, and how a client chooses its transport

Sources:

* `citadel_proto/src/proto/misc/net.rs:158-415` (`GenericNetworkListener`: `from_quic_node`,
  `new_tcp`, `new_tls`, `new_websocket`, `poll_next`), `417-505` (`TlsListener`), `507-572`
  (`QuicListener`), `574-759` (`FirstPacket`, `DualListener`);
* `citadel_wire/src/standard/quic.rs:134-151` (`next_connection`);
* `citadel_proto/src/proto/node.rs:320-373` (`primary_session_creator_loop`);
* `citadel_proto/src/proto/misc/native_connect.rs:31-101` (`c2s_connect`), `native_upgrade.rs:119-167`
  (`connect_target`), `native_config.rs` (the modes of a server), `native_io.rs:14-45`
  (`require_cert_verification`).

A listener owns a future that is polled before its channel.  When that future ends the listener
gives one error, and whoever polls it next polls a future that has ended, which panics; every
owner of a listener does poll it again (`from_quic_node`, `new_tls` and `DualListener::new` in the
same poll, the loop of the node in the next turn).  Here a listener whose future has ended is `dead`.

Simplifications.  Core Lean only.  Attempts are numbers.  What happens between the acceptance of an
attempt and the end of its handshake (the first packet, TLS, the WebSocket upgrade; for QUIC the
handshake and the first stream) is one event with a result.  The channels of 1024 results do not
fill.  A certificate is the set of names it is valid for under the roots of the client.
-/

namespace Verif.Listen

/-! ## Listeners -/

inductive Kind where
  /-- `GenericNetworkListener::new_tcp` -/
  | tcp
  /-- `TlsListener` under `GenericNetworkListener::new_tls` -/
  | tls
  /-- `GenericNetworkListener::new_websocket` -/
  | ws
  /-- `QuicListener` under `GenericNetworkListener::from_quic_node` -/
  | quic
  /-- `new_tcp` as the first argument of `DualListener::merge_suppressing_signal` -/
  | signal
  deriving DecidableEq, Repr

structure State where
  kind : Kind
  /-- Attempts the system has and `accept` has not given. -/
  backlog : List Nat
  /-- Attempts in their handshake. -/
  waiting : List Nat
  /-- The channel of the listener; `none` is an error. -/
  queue : List (Option Nat)
  dead : Bool
  /-- What the node got. -/
  out : List (Option Nat)
  deriving DecidableEq, Repr

inductive Event where
  | arrive (i : Nat)
  /-- `accept` gives an attempt; the flag is the result of `set_nodelay`. -/
  | accept (set : Bool)
  /-- `accept` fails. -/
  | acceptFails
  /-- The handshake of an attempt ends. -/
  | hand (i : Nat) (ok : Bool)
  | poll
  deriving DecidableEq, Repr

def arrive (s : State) (i : Nat) : State := { s with backlog := s.backlog ++ [i] }

/-- What becomes of an attempt that failed. -/
def bad (s : State) : State :=
  match s.kind with
  | .tcp => { s with queue := s.queue ++ [none] }
  | .tls => s
  | .ws => s
  | .quic => { s with dead := true }
  | .signal => { s with dead := true }

/-- What becomes of an attempt that succeeded. -/
def good (s : State) (i : Nat) : State :=
  match s.kind with
  | .signal => s
  | _ => { s with queue := s.queue ++ [some i] }

def accept (s : State) (set : Bool) : State :=
  match s.backlog with
  | [] => s
  | i :: b =>
    match s.kind with
    | .quic =>
      if s.waiting = [] then { s with backlog := b, waiting := [i] } else s
    | .ws =>
      if set then { s with backlog := b, waiting := s.waiting ++ [i] }
      else { s with backlog := b, dead := true }
    | _ =>
      if set then { s with backlog := b, waiting := s.waiting ++ [i] }
      else bad { s with backlog := b }

def acceptFails (s : State) : State := { s with dead := true }

def hand (s : State) (i : Nat) (ok : Bool) : State :=
  if i ∈ s.waiting then
    if ok then good { s with waiting := s.waiting.erase i } i
    else bad { s with waiting := s.waiting.erase i }
  else s

def poll (s : State) : State :=
  match s.queue with
  | [] => s
  | x :: q => { s with queue := q, out := s.out ++ [x] }

def step (s : State) (e : Event) : State :=
  if s.dead then s
  else
    match e with
    | .arrive i => arrive s i
    | .accept o => accept s o
    | .acceptFails => acceptFails s
    | .hand i ok => hand s i ok
    | .poll => poll s

def run (s : State) : List Event → State
  | [] => s
  | e :: es => run (step s e) es

def init (k : Kind) : State := ⟨k, [], [], [], false, []⟩

/-- Two listeners that are merged: `merge_with` (a WebSocket listener beside TCP or TLS) and
`merge_suppressing_signal` (the TCP listener that redirects to QUIC).  They are polled in one task. -/
structure Node where
  main : State
  extra : State
  deriving DecidableEq, Repr

/-- An event at the main (`true`) or at the other listener. -/
def nstep (n : Node) (e : Bool × Event) : Node :=
  if n.main.dead || n.extra.dead then n
  else if e.1 then { n with main := step n.main e.2 }
  else { n with extra := step n.extra e.2 }

def nrun (n : Node) : List (Bool × Event) → Node
  | [] => n
  | e :: es => nrun (nstep n e) es

/-! ## The client -/

/-- `FirstPacket`, without the address. -/
inductive First where
  | plain
  | tls (domain : Option String) (selfSigned : Bool)
  | p2p (domain : Option String) (selfSigned : Bool)
  deriving DecidableEq, Repr

/-- The transport that is tried: the name that is asked for, and whether the certificate is
verified for it. -/
inductive Try where
  | plain
  | tls (name : String) (verify : Bool)
  | quic (name : String) (verify : Bool)
  | refuse
  deriving DecidableEq, Repr

/-- `SELF_SIGNED_DOMAIN` -/
def selfSignedDomain : String := "localhost"

/-- `c2s_connect` and `connect_target`.  The configuration that is handed to `connect_biconn_with`
replaces the one of the endpoint. -/
def choose (require : Bool) : First → Try
  | .plain => .plain
  | .tls d s => .tls (d.getD selfSignedDomain) (!(s && !require))
  | .p2p (some d) _ => .quic d true
  | .p2p none _ => if require then .refuse else .quic selfSignedDomain false

/-- Whether the handshake with somebody who holds certificates for `names` succeeds. -/
def connects (names : String → Bool) : Try → Bool
  | .plain => true
  | .tls n v => !v || names n
  | .quic n v => !v || names n
  | .refuse => false

/-- The modes of a server, `native_config.rs`. -/
inductive Mode where
  | plain
  | tlsSelf
  | tls (domain : String)
  | p2pSelf
  | p2p (domain : String)
  deriving DecidableEq, Repr

/-- What it says first: `new_tcp`, `TlsListener::new`. -/
def Mode.first : Mode → First
  | .plain => .plain
  | .tlsSelf => .tls none true
  | .tls d => .tls (some d) false
  | .p2pSelf => .p2p none true
  | .p2p d => .p2p (some d) false

end Verif.Listen

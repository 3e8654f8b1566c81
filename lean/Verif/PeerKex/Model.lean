/-
Model of the key exchange of two peers over the central server, and of the virtual connections it makes.
Sources: /repo/citadel_proto/src/proto/packet_processor/peer/peer_cmd_packet.rs lines 143-190 (`Disconnect`), 288-403
(`PostConnect` with a response), 405-937 (`Kex`), 952-1024 (`PostConnect` without one), all at a client; 1089-1157
(`Kex`), 1397-1476 (`PostConnect`), 1505-1584 (`Disconnect`) at the server;
/repo/citadel_proto/src/proto/packet_processor/peer/server/post_connect.rs lines 53-104;
/repo/citadel_proto/src/proto/session_manager.rs lines 1279-1317, 1506-1559;
/repo/citadel_proto/src/proto/state_container/virtual_connections.rs lines 128-325 (`create_virtual_connection`);
/repo/citadel_proto/src/proto/state_container/mod.rs lines 555-568 (session passwords);
/repo/citadel_proto/src/proto/session.rs lines 2099-2258 (`dispatch_peer_command`);
/repo/citadel_proto/src/proto/misc/native_io_platform.rs lines 99-167 and
/repo/citadel_proto/src/proto/peer/p2p_conn_handler.rs lines 479-626 (the hole punching that follows);
/repo/citadel_proto/src/proto/peer/channel.rs lines 312-358 (`Drop`).

A client keeps its state towards each peer under the cid of that peer, and no handler below touches another entry: the
model has the entry of one peer (`Slot`).  Every handler takes the lock of the state container for its whole effect, so
it is one step.

The cryptography is symbolic.  A key pair of Alice and an encapsulation of Bob are fresh names (`Nonce`) that show who
made them; the key of the connection is the pair of them with the session password.  `stage1_alice` decrypts the
entropy banks of Bob, so it succeeds exactly if Bob answered the key pair that Alice has now, with the same password;
on a constructor of Bob it fails, for want of the secret key.  `finish_with_custom_cid` fails on a constructor of Alice
that has no entropy bank yet.  Password 0 stands for no password (`PreSharedKey::default`).

Left out: the NAT data and the settings in the messages, UDP channels, declined requests, re-keying, direct streams.
-/
namespace Verif.PeerKex

/-- Who makes a name: the two peers, or anybody else, among them a server that does not keep to the protocol. -/
inductive Who where
  | a | b | other
deriving DecidableEq, Repr

structure Nonce where
  who : Who
  n : Nat
deriving DecidableEq, Repr

/-- The key of a virtual connection: key pair, encapsulation, session password. -/
structure Key where
  x : Nonce
  y : Nonce
  psk : Nat
deriving DecidableEq, Repr

/-- The constructor of a ratchet. -/
inductive Con where
  | alice (x : Nonce)
  | bob (x y : Nonce)
deriving DecidableEq, Repr

/-- `PeerKemStateContainer`: constructor, `p2p_connection_id`, password, and the hole punching that ends with it
(`hole_punch_cancel_tx`). -/
structure Kem where
  con : Option Con
  id : Nat
  psk : Nat
  punch : Option Nat
deriving DecidableEq, Repr

/-- `VirtualConnection`. -/
structure Vconn where
  key : Key
  id : Nat
  active : Bool
deriving DecidableEq, Repr

/-- A running hole punching; it holds the channel of the connection `id` and hands it to the kernel at its end, unless
it was cancelled. -/
structure Punch where
  n : Nat
  key : Key
  id : Nat
  cancelled : Bool
deriving DecidableEq, Repr

/-- What the kernel is told. -/
inductive Ev where
  | request
  | channel (key : Key) (id : Nat)
  | failed
  | disconnected
deriving DecidableEq, Repr

inductive Msg where
  /-- `PostConnect` without a response. -/
  | request
  /-- `PostConnect` with `Accept`. -/
  | accept
  | stage0 (x : Nonce) (id : Nat)
  /-- The encapsulation `y` for `x`, with the banks encrypted under the key made of both and of `psk`. -/
  | stage1 (x y : Nonce) (psk id : Nat)
  | stage2
  | disconnect (token : Option Nat)
  /-- `SignalError`. -/
  | error
deriving DecidableEq, Repr

structure Slot where
  who : Who
  me : Nat
  peer : Nat
  kem : Option Kem := none
  vconn : Option Vconn := none
  /-- `session_passwords`. -/
  psk : Option Nat := none
  /-- `outgoing_peer_connect_attempts` has the peer. -/
  asked : Bool := false
  /-- `stale_p2p_ratchets`. -/
  stale : Option Key := none
  punches : List Punch := []
  told : List Ev := []
  panicked : Bool := false
  /-- The connections made so far (not in the code). -/
  made : List (Key × Nat) := []
deriving DecidableEq, Repr

def tell (s : Slot) (e : Ev) : Slot := { s with told := s.told ++ [e] }

/-- The `PeerKemStateContainer` is dropped or its sender replaced: the hole punching is told to stop. -/
def cancel (s : Slot) (p : Option Nat) : Slot :=
  { s with punches := s.punches.map fun q => if some q.n = p then { q with cancelled := true } else q }

/-- The sender held by an entry. -/
def Slot.punch (s : Slot) : Option Nat := s.kem.bind (·.punch)

/-- `state_container.peer_kem_states.insert`. -/
def setKem (s : Slot) (k : Kem) : Slot := { cancel s s.punch with kem := some k }

inductive Made where
  | ok (s : Slot)
  | duplicate
  | panic

/-- `create_virtual_connection`: the password must be there, and no active connection. -/
def create (s : Slot) (key : Key) (id : Nat) : Made :=
  match s.psk with
  | none => .panic
  | some _ =>
    if s.vconn.any (·.active) then .duplicate
    else .ok { s with vconn := some ⟨key, id, true⟩, stale := none, made := (key, id) :: s.made }

/-- `Accept` received: begin the key exchange as Alice (lines 288-403). -/
def onAccept (s : Slot) (n : Nat) : Slot × List Msg :=
  (setKem s ⟨some (.alice ⟨s.who, n⟩), n, s.psk.getD 0, none⟩, [.stage0 ⟨s.who, n⟩ n])

/-- `Stage0` received: become Bob, unless the own exchange goes first (lines 409-513). -/
def onStage0 (s : Slot) (n : Nat) (x : Nonce) (id : Nat) : Slot × List Msg :=
  if s.kem.any (·.con.isSome) && s.me < s.peer then (s, [])
  else (setKem s ⟨some (.bob x ⟨s.who, n⟩), id, s.psk.getD 0, none⟩, [.stage1 x ⟨s.who, n⟩ (s.psk.getD 0) id])

/-- The end of a key exchange that failed: the kernel and the peer are told. -/
def fail (s : Slot) : Slot × List Msg := (tell s .failed, [.error])

/-- `Stage1` received: Alice makes her connection (lines 515-757). -/
def onStage1 (s : Slot) (n : Nat) (x y : Nonce) (psk : Nat) : Slot × List Msg :=
  match s.kem with
  | none => (s, [])
  | some k =>
    let s1 := { cancel s k.punch with kem := none }
    match k.con with
    | none => (s1, [])
    | some (.bob _ _) => fail s1
    | some (.alice x0) =>
      if x0 = x ∧ k.psk = psk then
        match create s1 ⟨x, y, psk⟩ k.id with
        | .panic => ({ s1 with panicked := true }, [])
        | .duplicate => (s1, [])
        | .ok s2 =>
          ({ s2 with kem := some { k with con := none, punch := some n }, asked := false,
                     punches := s2.punches ++ [⟨n, ⟨x, y, psk⟩, k.id, false⟩] }, [.stage2])
      else fail s1

/-- `Stage2` received: Bob makes his connection (lines 759-937). -/
def onStage2 (s : Slot) (n : Nat) : Slot × List Msg :=
  match s.kem with
  | none => (s, [])
  | some k =>
    let s1 := setKem s { k with con := none, punch := some n }
    match k.con with
    | none => (s1, [])
    | some (.alice _) => (s1, [])
    | some (.bob x y) =>
      match create s1 ⟨x, y, k.psk⟩ k.id with
      | .panic => ({ s1 with panicked := true }, [])
      | .duplicate => (s1, [])
      | .ok s2 => ({ s2 with asked := false, punches := s2.punches ++ [⟨n, ⟨x, y, k.psk⟩, k.id, false⟩] }, [])

/-- `PostConnect` without a response received (lines 952-1024). -/
def onRequest (s : Slot) : Slot × List Msg :=
  if s.asked then
    if s.me < s.peer then (setKem s ⟨none, 0, s.psk.getD 0, none⟩, [.accept])
    else (s, [])
  else (tell s .request, [])

/-- `Disconnect` received (lines 143-190). -/
def onDisconnect (s : Slot) (token : Option Nat) : Slot × List Msg :=
  if token.any fun t => s.vconn.any fun v => v.id ≠ t then (s, [])
  else (tell { s with stale := (s.vconn.map (·.key)).or s.stale, vconn := none } .disconnected, [])

/-- A signal of the peer is processed; `n` is a number not used before. -/
def handle (s : Slot) (n : Nat) (m : Msg) : Slot × List Msg :=
  if s.panicked then (s, [])
  else match m with
    | .request => onRequest s
    | .accept => onAccept s n
    | .stage0 x id => onStage0 s n x id
    | .stage1 x y psk _ => onStage1 s n x y psk
    | .stage2 => onStage2 s n
    | .disconnect t => onDisconnect s t
    | .error => (tell s .failed, [])

/-- `dispatch_peer_command` with `PostConnect`: a request, or the answer `Accept` to one (session.rs lines 2196-2234). -/
def ask (s : Slot) (psk : Nat) (m : Msg) : Slot × List Msg :=
  if s.panicked then (s, []) else ({ s with psk := some psk, asked := true }, [m])

/-- The channel of the connection `id` is dropped (`PeerChannelRecvHalf::drop`) and the request to disconnect
dispatched (session.rs lines 2121-2166). -/
def dropChannel (s : Slot) (id : Nat) : Slot × List Msg :=
  if s.panicked then (s, [])
  else match s.vconn with
    | none => (tell s .disconnected, [])
    | some v =>
      if v.id = id then ({ s with vconn := some { v with active := false } }, [.disconnect (some id)])
      else (s, [])

/-- Hole punching `n` comes to its end; `unregistered`: already the exchange of messages before it failed, and then it
is not asked whether it was cancelled (native_io_platform.rs lines 121-165). -/
def punched (s : Slot) (n : Nat) (unregistered : Bool) : Slot × List Msg :=
  match s.punches.find? (·.n = n) with
  | none => (s, [])
  | some p =>
    let s1 := { s with punches := s.punches.filter (·.n ≠ n) }
    if p.cancelled && !unregistered then dropChannel s1 p.id
    else (tell s1 (.channel p.key p.id), [])

/-! ### Two peers and the server -/

structure World where
  a : Slot
  b : Slot
  /-- On the way to the server. -/
  upA : List Msg := []
  upB : List Msg := []
  /-- On the way to the clients. -/
  downA : List Msg := []
  downB : List Msg := []
  /-- The server has a posting of a request of the client. -/
  postA : Bool := false
  postB : Bool := false
  /-- The server has the virtual connection between the two. -/
  linked : Bool := false
  next : Nat := 1
deriving DecidableEq, Repr

def start (ca cb : Nat) : World := { a := { who := .a, me := ca, peer := cb }, b := { who := .b, me := cb, peer := ca } }

/-- The two clients of the world. -/
inductive Side where
  | a | b
deriving DecidableEq, Repr

def Side.flip : Side → Side
  | .a => .b
  | .b => .a

def World.slot (w : World) : Side → Slot
  | .a => w.a
  | .b => w.b
def World.up (w : World) : Side → List Msg
  | .a => w.upA
  | .b => w.upB
def World.down (w : World) : Side → List Msg
  | .a => w.downA
  | .b => w.downB
def World.post (w : World) : Side → Bool
  | .a => w.postA
  | .b => w.postB
def World.setPost (w : World) (i : Side) (v : Bool) : World :=
  match i with
  | .a => { w with postA := v }
  | .b => { w with postB := v }
def World.setUp (w : World) (i : Side) (l : List Msg) : World :=
  match i with
  | .a => { w with upA := l }
  | .b => { w with upB := l }
def World.setDown (w : World) (i : Side) (l : List Msg) : World :=
  match i with
  | .a => { w with downA := l }
  | .b => { w with downB := l }
def World.setSlot (w : World) (i : Side) (s : Slot) : World :=
  match i with
  | .a => { w with a := s }
  | .b => { w with b := s }

/-- The server sends to a client. -/
def World.send (w : World) (i : Side) (m : Msg) : World := w.setDown i (w.down i ++ [m])

/-- The server processes a signal of client `i`. -/
def relay (w : World) (i : Side) (m : Msg) : World :=
  match m with
  | .request =>
    if w.post i.flip then { (w.setPost i.flip false).send i.flip .accept with linked := true }
    else (w.setPost i true).send i.flip .request
  | .accept =>
    if w.post i.flip then { (w.setPost i.flip false).send i.flip .accept with linked := true }
    else w.send i .error
  | .disconnect _ =>
    let w1 := { w with postA := false, postB := false }
    let w2 := if w1.linked then w1.send i.flip (.disconnect none) else w1
    w2.send i (.disconnect none)
  | .error => w
  | m => w.send i.flip m

inductive Act where
  /-- The user asks for a connection. -/
  | connect (i : Side) (psk : Nat)
  /-- The user accepts a request. -/
  | respond (i : Side) (psk : Nat)
  /-- The server processes the `k`-th waiting signal of client `i`. -/
  | serve (i : Side) (k : Nat)
  /-- Client `i` processes the `k`-th waiting signal. -/
  | deliver (i : Side) (k : Nat)
  | punched (i : Side) (n : Nat) (unregistered : Bool)
  | dropped (i : Side) (id : Nat)
deriving DecidableEq, Repr

/-- A client has acted. -/
def World.did (w : World) (i : Side) (r : Slot × List Msg) : World :=
  (w.setSlot i r.1).setUp i (w.up i ++ r.2)

def step (w : World) : Act → World
  | .connect i p => w.did i (ask (w.slot i) p .request)
  | .respond i p => if .request ∈ (w.slot i).told then w.did i (ask (w.slot i) p .accept) else w
  | .serve i k =>
    match (w.up i)[k]? with
    | none => w
    | some m => relay (w.setUp i ((w.up i).eraseIdx k)) i m
  | .deliver i k =>
    match (w.down i)[k]? with
    | none => w
    | some m =>
      { (w.setDown i ((w.down i).eraseIdx k)).did i (handle (w.slot i) w.next m) with next := w.next + 1 }
  | .punched i n u => w.did i (punched (w.slot i) n u)
  | .dropped i id => if (w.slot i).told.any (fun e => match e with | .channel _ d => d == id | _ => false)
      then w.did i (dropChannel (w.slot i) id) else w

def run (w : World) : List Act → World
  | [] => w
  | t :: ts => run (step w t) ts

end Verif.PeerKex

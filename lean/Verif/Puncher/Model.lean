import Verif.Common.AssocMap
/-!
The single puncher (`citadel_wire/src/udp_traversal/linear/method3.rs`): `execute_either` with its two tasks, `recv_until` and
`send_packet_barrage`, and the socket they share. (`HolePunch` models how the punchers of an endpoint are driven.)

Any number of punchers, numbered; the number is the `HolePunchID`. A task runs up to its next `.await` in one step. What a puncher
sends stays in the history, and anything in the history may arrive at any puncher at any time, at any source address and any
number of times, or never. Simplifications: the sealing of packets (`encrypted_config_container.rs`, with a ratchet:
`packet_crafter.rs:1805-1866`) is ideal, all punchers of the two endpoints have the keys and nobody else (so a packet that
opens is in the history); the time to live of a datagram is left out; addresses are numbers; a `HashSet` of addresses is a list
without repetition, and is gone through in any order.
-/
namespace Verif.Puncher

abbrev Addr := Nat

/-- `NatPacket`, 89-95. -/
inductive Pkt
  /-- the sender, the role of its endpoint, the address it sends to -/
  | syn (id : Nat) (role : Bool) (to : Addr)
  /-- the sender, its role, the address in the `Syn` it answers, the sender of that `Syn` -/
  | synAck (id : Nat) (role : Bool) (sent : Addr) (peer : Nat)
  | check
  deriving DecidableEq, Repr

/-- What arrives at a socket: bytes that were sealed with the keys of the two endpoints, or any others. -/
inductive Wire
  | sealed (p : Pkt)
  /-- the serialized packet as it is -/
  | plain (p : Pkt)
  | junk
  deriving DecidableEq, Repr

/-- `decrypt_packet`. -/
def Wire.open? : Wire → Option Pkt
  | .sealed p => some p
  | _ => none

/-- Where a run of `send_packet_barrage` is. -/
inductive Bar
  /-- before the tick and the lock of a round, with so many rounds to go, 240-243 -/
  | tick (n : Nat)
  /-- in a round, with the lock: these are still to be sent to, 245-282 -/
  | sending (n : Nat) (todo : List Addr)
  | okay
  | failed
  deriving DecidableEq, Repr

/-- Where `recv_until` is. -/
inductive Recv
  | listening
  /-- a `Syn` was noted (342-354); at the lock of the endpoints, 356: its source, the address it was sent to, its sender -/
  | locking (src sent : Addr) (id : Nat)
  /-- in the barrage of answers, 363-368 -/
  | replying (sent : Addr) (id : Nat) (b : Bar)
  /-- the result: `initial`, `natted`, `unique_id` -/
  | done (initial natted : Addr) (id : Nat)
  | failed
  deriving DecidableEq, Repr

structure Punch where
  /-- the shared set of endpoints -/
  eps : List Addr
  hasSyn : Bool := false
  /-- `observed_addrs_on_syn` -/
  observed : AMap Nat Addr := []
  /-- `*lock == false` in `UdpWrapper` -/
  stopped : Bool := false
  /-- `sender_task`: two rounds, 153-163 -/
  main : Bar := .tick 2
  recv : Recv := .listening

/-- Something that was sent, and where to. -/
structure Sent where
  src : Nat
  to : Addr
  wire : Wire
  deriving DecidableEq, Repr

structure St where
  punch : Nat → Punch
  hist : List Sent := []

/-- How sending a datagram ends, if it is not stopped. -/
inductive Out
  | okay
  /-- `ENETUNREACH` -/
  | unreachable
  /-- `ErrorKind::InvalidInput`: the address is IPv6, the socket is not, 472-477 -/
  | invalid
  | other
  deriving DecidableEq, Repr

/-- `to_string()` of an `io::Error` of the operating system for `ENETUNREACH`: the text of `strerror` and the number. -/
def unreachableText : String := "Network is unreachable (os error 101)"

/-- `str::contains`. -/
def contains (s t : List Char) : Bool :=
  match s with
  | [] => t.isEmpty
  | _ :: s' => t.isPrefixOf s || contains s' t

/-- 275-281: whether the endpoint is taken out of the set. -/
def removes : Out → Bool
  | .okay => false
  | .unreachable => contains unreachableText.toList "NetworkUnreachable".toList
  | .invalid => true
  | .other => false

inductive Act
  /-- a barrage (`true`: of the sender task, `false`: of the receiver task) gets its tick and the lock -/
  | tick (i : Nat) (m : Bool)
  /-- it sends to one of its endpoints -/
  | send (i : Nat) (m : Bool) (to : Addr) (o : Out)
  /-- it is through with the round -/
  | endRound (i : Nat) (m : Bool)
  /-- the receiver task has the lock, 356-361 -/
  | lock (i : Nat)
  /-- the `n`-th datagram of the history arrives from this address; `ok`: whether the `Check` to that address can be sent -/
  | deliver (i : Nat) (n : Nat) (src : Addr) (ok : Bool)
  /-- something else arrives, of anybody -/
  | inject (i : Nat) (src : Addr) (w : Wire)
  /-- `ConnectionReset`, 425-429 -/
  | reset (i : Nat)
  /-- after three seconds, 166-183 -/
  | timeout (i : Nat)
  deriving DecidableEq, Repr

def Bar.isSending : Bar → Bool
  | .sending .. => true
  | _ => false

/-- The barrage of the receiver task, if it is in one. -/
def Recv.bar? : Recv → Option Bar
  | .replying _ _ b => some b
  | _ => none

def Punch.bar? (p : Punch) : Bool → Option Bar
  | true => some p.main
  | false => p.recv.bar?

/-- Whether the other task has the lock of the endpoints. -/
def Punch.locked (p : Punch) (m : Bool) : Bool :=
  match p.bar? (!m) with
  | some b => b.isSending
  | none => false

/-- What the task does when its barrage has moved to `b`: the receiver task goes on listening, or returns the error (363-368). -/
def Punch.setBar (p : Punch) (m : Bool) (b : Bar) : Punch :=
  match m with
  | true => { p with main := b }
  | false =>
    match p.recv with
    | .replying a id _ =>
      match b with
      | .okay => { p with recv := .listening }
      | .failed => { p with recv := .failed }
      | b => { p with recv := .replying a id b }
    | _ => p

/-- The packet of a barrage, 246-255. -/
def Punch.packet (p : Punch) (role : Bool) (i : Nat) (m : Bool) (to : Addr) : Option Pkt :=
  match m with
  | true => some (.syn i role to)
  | false =>
    match p.recv with
    | .replying a id _ => some (.synAck i role a id)
    | _ => none

/-- A packet that opened, in `recv_until`, 323-411. -/
def handle (role : Bool) (i : Nat) (p : Punch) (src : Addr) (ok : Bool) : Pkt → Punch
  | .check => p
  | .syn id r sent =>
    if p.hasSyn then p
    else if r = role ∨ id = i then p
    else { p with hasSyn := true, observed := p.observed.insert id src, recv := .locking src sent id }
  | .synAck id r sent peer =>
    if r = role then p
    else if peer ≠ i then p
    else if src ≠ sent ∧ ok = false then p
    else { p with stopped := true, recv := .done sent src id }

/-- Whether a `Check` is sent, 388-396: the answer is to this puncher and comes from another address than was sent to. It is not
sealed. -/
def checks (role : Bool) (i : Nat) (src : Addr) : Pkt → Bool
  | .synAck _ r sent peer => decide (r ≠ role) && decide (peer = i) && decide (src ≠ sent)
  | _ => false

def setPunch (s : St) (i : Nat) (p : Punch) : St := { s with punch := fun j => if j = i then p else s.punch j }

/-- One step; `none` if the action is not possible. `role` gives the role of each puncher's endpoint. -/
def step (role : Nat → Bool) (s : St) : Act → Option St
  | .tick i m =>
    let p := s.punch i
    match p.bar? m with
    | some (.tick n) => if p.locked m then none else some (setPunch s i (p.setBar m (.sending n p.eps)))
    | _ => none
  | .send i m to o =>
    let p := s.punch i
    match p.bar? m with
    | some (.sending n todo) =>
      if to ∈ todo then
        if p.stopped then some (setPunch s i (p.setBar m .okay))
        else
          match p.packet (role i) i m to with
          | none => none
          | some k =>
            let q := p.setBar m (.sending n (todo.filter (· ≠ to)))
            let q := if removes o then { q with eps := q.eps.filter (· ≠ to) } else q
            let s' := setPunch s i q
            some (if o = .okay then { s' with hist := s'.hist ++ [⟨i, to, .sealed k⟩] } else s')
      else none
    | _ => none
  | .endRound i m =>
    let p := s.punch i
    match p.bar? m with
    | some (.sending n []) =>
      some (setPunch s i (p.setBar m (if p.eps = [] then .failed else if n ≤ 1 then .okay else .tick (n - 1))))
    | _ => none
  | .lock i =>
    let p := s.punch i
    match p.recv with
    | .locking src sent id =>
      if p.main.isSending then none
      else some (setPunch s i { p with
        eps := if src ∈ p.eps then p.eps else src :: p.eps
        recv := .replying sent id (.tick 2) })
    | _ => none
  | .deliver i n src ok =>
    let p := s.punch i
    match p.recv, s.hist[n]? with
    | .listening, some d =>
      match d.wire.open? with
      | some k =>
        let s' := setPunch s i (handle (role i) i p src ok k)
        some (if checks (role i) i src k && ok then { s' with hist := s'.hist ++ [⟨i, src, .plain .check⟩] } else s')
      | none => some s
    | _, _ => none
  | .inject i _ w =>
    match (s.punch i).recv, w with
    | .listening, .sealed _ => none
    | .listening, w =>
      match w.open? with
      | some _ => none
      | none => some s
    | _, _ => none
  | .reset i =>
    let p := s.punch i
    match p.recv with
    | .listening => some (setPunch s i { p with recv := .failed })
    | _ => none
  | .timeout i =>
    let p := s.punch i
    match p.recv with
    | .done .. => none
    | .failed => none
    | _ => some (setPunch s i { p with recv := .failed })

def run (role : Nat → Bool) : St → List Act → Option St
  | s, [] => some s
  | s, a :: as =>
    match step role s a with
    | none => none
    | some s' => run role s' as

/-- Every puncher at the start, with its endpoints. -/
def init (eps : Nat → List Addr) : St := { punch := fun i => { eps := eps i } }

end Verif.Puncher

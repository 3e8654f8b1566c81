/-!
# The bidirectional channel of netbeam

`netbeam/src/sync/channel/bi_channel.rs` 64-295: two ends over a reliable ordered stream; each end has a send half and
a receive half which share one flag, `recv_halt`; dropping a receive half spawns a task which tells the other end.

Simplifications: packets are written and read whole and in order; `send_item` tests the flag and sends in one step;
the stream underneath stays open (when it ends, the tasks end with an error). Dropping a send half does nothing.
-/
namespace Verif.BiChan

/-- `ChannelPacket` (`bi_channel.rs` 69-77). -/
inductive Pkt
  | item (x : Nat)
  | halt
  | haltVerified
  deriving DecidableEq, Repr

/-- Where an end is with its receive half: alive, dropped with the task spawned but not run, the task has sent `Halt`,
the task has set the flag and waits for `HaltVerified`, it has got it; or the task has sent `HaltVerified`. -/
inductive Phase
  | live
  | dropped
  | sentHalt
  | waiting
  | done
  | verified
  deriving DecidableEq, Repr

structure End where
  /-- `recv_halt` -/
  halt : Bool := false
  phase : Phase := .live
  /-- what has arrived and was not read -/
  inbox : List Pkt := []
  /-- ghost: the items for which `send_item` returned `Ok` -/
  accepted : List Nat := []
  /-- ghost: the items for which `send_item` returned `Ok` before the task sent `Halt` -/
  beforeHalt : List Nat := []
  /-- ghost: the items which `recv` returned -/
  got : List Nat := []
  deriving DecidableEq, Repr

/-- The two ends. -/
structure St where
  a : End := {}
  b : End := {}
  deriving DecidableEq, Repr

/-- The end `a` is the side `true`. -/
def St.get (s : St) : Bool → End
  | true => s.a
  | false => s.b

def St.set (s : St) (i : Bool) (e : End) : St :=
  match i with
  | true => { s with a := e }
  | false => { s with b := e }

/-- The stream carries a packet to the other end. -/
def push (s : St) (i : Bool) (p : Pkt) : St :=
  s.set (!i) { s.get (!i) with inbox := (s.get (!i)).inbox ++ [p] }

inductive Act
  | send (i : Bool) (x : Nat)
  | recv (i : Bool)
  | drop (i : Bool)
  | task (i : Bool)
  deriving DecidableEq, Repr

/-- `send_item` (`bi_channel.rs` 112-124). -/
def sendItem (s : St) (i : Bool) (x : Nat) : St :=
  if (s.get i).halt then s
  else
    let e := s.get i
    let before := e.phase = .live ∨ e.phase = .dropped
    push (s.set i { e with
      accepted := e.accepted ++ [x]
      beforeHalt := if before then e.beforeHalt ++ [x] else e.beforeHalt }) i (.item x)

/-- `recv` and `poll_next` (`bi_channel.rs` 134-153, 186-195, 225-247): with the flag set nothing is read; a packet which
is not an item sets the flag. -/
def recv (s : St) (i : Bool) : St :=
  let e := s.get i
  if e.phase = .live ∧ e.halt = false then
    match e.inbox with
    | [] => s
    | .item x :: rest => s.set i { e with inbox := rest, got := e.got ++ [x] }
    | _ :: rest => s.set i { e with inbox := rest, halt := true }
  else s

/-- `drop` of the receive half spawns the task (`bi_channel.rs` 250-253). -/
def dropRecv (s : St) (i : Bool) : St :=
  let e := s.get i
  if e.phase = .live then s.set i { e with phase := .dropped } else s

/-- One step of the task (`bi_channel.rs` 254-280). -/
def task (s : St) (i : Bool) : St :=
  let e := s.get i
  match e.phase with
  | .dropped =>
    if e.halt = false then push (s.set i { e with phase := .sentHalt }) i .halt
    else push (s.set i { e with phase := .verified }) i .haltVerified
  | .sentHalt => s.set i { e with phase := .waiting, halt := true }
  | .waiting =>
    match e.inbox with
    | [] => s
    | .haltVerified :: rest => s.set i { e with inbox := rest, phase := .done }
    | _ :: rest => s.set i { e with inbox := rest }
  | _ => s

def step (s : St) : Act → St
  | .send i x => sendItem s i x
  | .recv i => recv s i
  | .drop i => dropRecv s i
  | .task i => task s i

def run (s : St) (as : List Act) : St := as.foldl step s

end Verif.BiChan

/-!
# How two browsers turn a relayed connection into a direct one

Sources:

* `citadel_proto/src/proto/misc/wasm_p2p.rs:12-104` (`hole_punch_initiator`,
  `hole_punch_responder`), `111-215` (`p2p_hole_punch`), `254-318` (`on_datachannel_established`);
* `citadel_proto/src/proto/misc/wasm_rtc.rs:63-295` (each step can fail; the waits have no time limit);
* `citadel_proto/src/proto/packet_processor/peer/peer_cmd_packet.rs:700-757, 890-936` (who starts as
  what; with `needs_turn` the hole punch is not tried), `1023-1038` (a signal goes to the channel
  registered for the peer, and without one it is dropped), `1793-1815` (the server passes it on).

Both ends have created the virtual connection when they come here; `channel_signal` tells the
kernel of it.  An end gives it to the kernel when the hole punch has ended, well or not.

Simplifications.  Core Lean only.  One attempt between two ends.  The gathering of candidates and
the descriptions are part of the step that sends them; each step can fail as a choice.  The server
passes signals on in order; an end handles a signal as one step.
-/

namespace Verif.Rtc

inductive Phase where
  /-- The key exchange has not come to its end here. -/
  | before
  /-- The initiator makes its offer. -/
  | making
  /-- The responder waits for the offer. -/
  | wantOffer
  /-- The responder makes its answer. -/
  | answering
  /-- The initiator waits for the answer. -/
  | wantAnswer
  /-- Waits for the data channel. -/
  | opening
  | direct
  | relayed
  deriving DecidableEq, Repr

inductive Signal where
  | offer
  | answer
  deriving DecidableEq, Repr

structure End where
  initiator : Bool
  phase : Phase
  /-- A channel for signals is registered. -/
  registered : Bool
  inbox : List Signal
  /-- How often the kernel was given the channel. -/
  given : Nat
  deriving DecidableEq, Repr

structure State where
  a : End
  b : End
  /-- Signals on the way to the responder, and to the initiator. -/
  toB : List Signal
  toA : List Signal
  deriving DecidableEq, Repr

def newEnd (i : Bool) : End := ⟨i, .before, false, [], 0⟩

def init : State := ⟨newEnd true, newEnd false, [], []⟩

/-- `p2p_hole_punch` begins, unless `needs_turn`. -/
def End.begin (e : End) (turn : Bool) : End :=
  match e.phase with
  | .before =>
    if turn then { e with phase := .relayed, given := e.given + 1 }
    else { e with phase := if e.initiator then .making else .wantOffer, registered := true }
  | _ => e

/-- The hole punch has failed: the channel for signals is removed, the relayed connection is given
to the kernel. -/
def End.giveUp (e : End) : End :=
  { e with phase := .relayed, registered := false, inbox := [], given := e.given + 1 }

/-- The data channel is open. -/
def End.succeed (e : End) : End :=
  { e with phase := .direct, registered := false, inbox := [], given := e.given + 1 }

/-- A signal comes through the session. -/
def End.deliver (e : End) (x : Signal) : End :=
  if e.registered then { e with inbox := e.inbox ++ [x] } else e

inductive Event where
  | begin (atA : Bool) (turn : Bool)
  /-- The end makes its offer or answer, or this fails. -/
  | make (atA : Bool) (ok : Bool)
  /-- A signal on the way arrives. -/
  | arrive (atA : Bool)
  /-- The end takes a signal it waits for; applying it can fail. -/
  | recv (atA : Bool) (ok : Bool)
  /-- The data channel opens at both ends, or reports an error at one. -/
  | opens (atA : Bool)
  | error (atA : Bool)
  deriving DecidableEq, Repr

/-- What an end does when its offer or answer is ready. -/
def End.make (e : End) (ok : Bool) : End × List Signal :=
  match e.phase with
  | .making => if ok then ({ e with phase := .wantAnswer }, [.offer]) else (e.giveUp, [])
  | .answering => if ok then ({ e with phase := .opening }, [.answer]) else (e.giveUp, [])
  | _ => (e, [])

/-- `sig_rx.recv().await` -/
def End.recv (e : End) (ok : Bool) : End :=
  match e.inbox with
  | [] => e
  | x :: q =>
    match e.phase with
    | .wantOffer =>
      if x = .offer ∧ ok = true then { e with phase := .answering, inbox := q } else e.giveUp
    | .wantAnswer =>
      if x = .answer ∧ ok = true then { e with phase := .opening, inbox := q } else e.giveUp
    | _ => e

/-- Whether an end has all it needs for the data channel. -/
def End.set (e : End) : Bool := e.phase = .opening ∨ e.phase = .direct

def End.opens (e : End) (other : End) : End :=
  if e.phase = .opening ∧ other.set = true then e.succeed else e

def End.error (e : End) : End := if e.phase = .opening then e.giveUp else e

def step (s : State) : Event → State
  | .begin true t => { s with a := s.a.begin t }
  | .begin false t => { s with b := s.b.begin t }
  | .make true ok => { s with a := (s.a.make ok).1, toB := s.toB ++ (s.a.make ok).2 }
  | .make false ok => { s with b := (s.b.make ok).1, toA := s.toA ++ (s.b.make ok).2 }
  | .arrive true =>
    match s.toA with
    | [] => s
    | x :: q => { s with a := s.a.deliver x, toA := q }
  | .arrive false =>
    match s.toB with
    | [] => s
    | x :: q => { s with b := s.b.deliver x, toB := q }
  | .recv true ok => { s with a := s.a.recv ok }
  | .recv false ok => { s with b := s.b.recv ok }
  | .opens true => { s with a := s.a.opens s.b }
  | .opens false => { s with b := s.b.opens s.a }
  | .error true => { s with a := s.a.error }
  | .error false => { s with b := s.b.error }

def run (s : State) : List Event → State
  | [] => s
  | e :: es => run (step s e) es

end Verif.Rtc

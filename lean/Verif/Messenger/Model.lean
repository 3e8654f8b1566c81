import Verif.Ordered.Model
/-
Model of the messenger layer over the ratchet manager: numbered messages, the queue of perfect-secrecy mode, the
background task that drains the queue, and the ordered receiver.
Source: /repo/citadel_crypt/src/messaging.rs lines 85-165 (background task), 233-291 (`send`), and the ways
`trigger_rekey_with_payload` of /repo/citadel_crypt/src/ratchets/ratchet_manager.rs lines 300-672 ends.

The re-key protocol itself is modelled in `Verif/Rekey`; here a call of `trigger_rekey_with_payload` ends in an
arbitrary one of the three ways it can end (`Outcome`), at any later time. Tasks interleave at the single steps below
(several threads); `coop` gives the coarser steps of one thread, where a task is interrupted only at an `await` that
waits. The transport delivers the messages of the sender in any order, each at most once. Left out: the `is_active` flag
and shutdown, `rekey_finished_tx`, cancelled `send` futures.
-/
namespace Verif.Messenger
open Verif

variable {T : Type}

/-- `SecrecyMode`. -/
inductive Mode
  | bestEffort
  | perfect
deriving DecidableEq

/-- How `trigger_rekey_with_payload(Some(message), false)` ends.
`sent`: `Ok(None)`, the message went out with the first re-key packet (lines 590-618).
`returned`: `Ok(Some(message))`; all these paths first send `None` to the listener (lines 361-365, 380-384, 467-474, 665-671).
`failed`: `Err(_)` (lines 371, 453, 605 and failures of the key exchange code), the message is dropped. -/
inductive Outcome
  | sent
  | returned
  | failed
deriving DecidableEq

/-- Where the one running `send` call (it takes `&mut self`) is. -/
inductive SendAt (T : Type)
  /-- no call is running -/
  | idle
  /-- in `trigger_rekey_with_payload`, lines 247-250 and 272-275 -/
  | trigger (m : Nat × T)
  /-- the message came back; before lines 253-257 or 278-279 -/
  | returned (m : Nat × T)

/-- Where the background task is. -/
inductive DrainAt (T : Type)
  /-- waiting in `on_rekey_finish_listener.recv()`, line 90 -/
  | idle
  /-- at the head of the loop, line 105 -/
  | loop
  /-- in `trigger_rekey_with_payload`, lines 114-116 -/
  | trigger (m : Nat × T)
  /-- the message came back; before lines 120-122 -/
  | returned (m : Nat × T)

/-- Both ends of one direction. `accepted` and `arrived` are records for the statements only. -/
structure Sys (T : Type) where
  nextId : Nat
  sendAt : SendAt T
  drainAt : DrainAt T
  queue : List (Nat × T)
  /-- unread items of the listener channel -/
  events : Nat
  /-- messages sent and not arrived -/
  wire : List (Nat × T)
  chan : Ordered.Chan T
  accepted : List T
  arrived : List (Nat × T)

def Sys.new : Sys T :=
  { nextId := 0, sendAt := .idle, drainAt := .idle, queue := [], events := 0, wire := [], chan := Ordered.new,
    accepted := [], arrived := [] }

inductive Step (T : Type)
  /-- the application calls `send` -/
  | call (m : T)
  /-- the call of `trigger_rekey_with_payload` in `send` ends -/
  | sendTrigger (o : Outcome)
  /-- `send` deals with a message that came back -/
  | sendEnd
  /-- a re-key ends (of either side, with or without success): an item for the listener -/
  | rekeyEnd
  /-- the background task reads an item -/
  | wake
  /-- the background task looks at the queue -/
  | pop
  /-- the call of `trigger_rekey_with_payload` in the background task ends -/
  | drainTrigger (o : Outcome)
  /-- the background task puts a message back -/
  | putBack
  /-- the `k`-th message on the way arrives -/
  | arrive (k : Nat)

/-- `send` up to the call, lines 233-243 with `get_and_increment_message_id`, lines 287-291. -/
def call (s : Sys T) (m : T) : Sys T :=
  match s.sendAt with
  | .idle =>
    { s with nextId := s.nextId + 1, sendAt := .trigger (s.nextId, m), accepted := s.accepted ++ [m] }
  | _ => s

def sendTrigger (s : Sys T) (o : Outcome) : Sys T :=
  match s.sendAt with
  | .trigger m =>
    match o with
    | .sent => { s with sendAt := .idle, wire := s.wire ++ [m] }
    | .returned => { s with sendAt := .returned m, events := s.events + 1 }
    | .failed => { s with sendAt := .idle }
  | _ => s

def sendEnd (mode : Mode) (s : Sys T) : Sys T :=
  match s.sendAt with
  | .returned m =>
    match mode with
    | .bestEffort => { s with sendAt := .idle, wire := s.wire ++ [m] }
    | .perfect => { s with sendAt := .idle, queue := s.queue ++ [m] }
  | _ => s

/-- Line 90. -/
def wake (s : Sys T) : Sys T :=
  match s.drainAt with
  | .idle => if s.events = 0 then s else { s with drainAt := .loop, events := s.events - 1 }
  | _ => s

/-- Lines 105-112 and 136-138. -/
def pop (s : Sys T) : Sys T :=
  match s.drainAt with
  | .loop =>
    match s.queue with
    | [] => { s with drainAt := .idle }
    | m :: q => { s with drainAt := .trigger m, queue := q }
  | _ => s

/-- Lines 114-135. -/
def drainTrigger (s : Sys T) (o : Outcome) : Sys T :=
  match s.drainAt with
  | .trigger m =>
    match o with
    | .sent => { s with drainAt := .loop, wire := s.wire ++ [m] }
    | .returned => { s with drainAt := .returned m, events := s.events + 1 }
    | .failed => { s with drainAt := .idle }
  | _ => s

/-- Lines 120-122. -/
def putBack (s : Sys T) : Sys T :=
  match s.drainAt with
  | .returned m => { s with drainAt := .idle, queue := m :: s.queue }
  | _ => s

/-- A message arrives: `payload_rx` (ratchet_manager.rs lines 858-863 and 1492-1496), then lines 154-156. -/
def arrive (s : Sys T) (k : Nat) : Sys T :=
  match s.wire[k]? with
  | none => s
  | some m =>
    { s with wire := s.wire.eraseIdx k, chan := Ordered.onPacketReceived s.chan m.1 m.2, arrived := s.arrived ++ [m] }

/-- One step with several threads. -/
def step (mode : Mode) (s : Sys T) : Step T → Sys T
  | .call m => call s m
  | .sendTrigger o => sendTrigger s o
  | .sendEnd => sendEnd mode s
  | .rekeyEnd => { s with events := s.events + 1 }
  | .wake => wake s
  | .pop => pop s
  | .drainTrigger o => drainTrigger s o
  | .putBack => putBack s
  | .arrive k => arrive s k

def run (mode : Mode) (s : Sys T) : List (Step T) → Sys T
  | [] => s
  | t :: ts => run mode (step mode s t) ts

/-- One step with one thread: the locks of the queue are never held across an `await`, so `send` goes on to the queue
when `trigger_rekey_with_payload` returns, and the background task goes on to the next such call, or to the listener.
(The sender of packets may be held by others: in best-effort mode `sendEnd` remains a step.) -/
def coop (mode : Mode) (s : Sys T) : Step T → Sys T
  | .sendTrigger o =>
    match mode with
    | .perfect => sendEnd mode (sendTrigger s o)
    | .bestEffort => sendTrigger s o
  | .wake => pop (wake s)
  | .drainTrigger o => pop (putBack (drainTrigger s o))
  | t => step mode s t

def runCoop (mode : Mode) (s : Sys T) : List (Step T) → Sys T
  | [] => s
  | t :: ts => runCoop mode (coop mode s t) ts

end Verif.Messenger

/-!
# Receiving datagrams through io_uring

Source: `citadel_io/src/standard/udp_io_uring.rs:34-41` (sizes), `48-85` (`IoUringUdpReceiver`: the
thread, and what happens when the receiver is dropped), `101-145` (slots and their submission),
`150-243` (`recv_loop`).

A slot holds the buffer of one `recvmsg`.  It is in the submission queue, at the kernel, in the
completion queue, or among the completions that the thread works on.  When `recv_loop` returns, its
locals are dropped before its parameters: the slots first, then the ring.

Simplifications.  Core Lean only.  The model begins when all slots are submitted (`159-167`).  An
address that cannot be read is an error of its completion.  Only the drop of the ring takes the
slots from the kernel, at once.  The thread's steps between two looks at the queues are one step.
-/

namespace Verif.Uring

/-- A datagram, or an error. -/
abbrev Item := Option Nat

inductive Phase where
  /-- Before the look at `shutdown`. -/
  | check
  /-- After `submit_with_args`. -/
  | reap
  /-- Works on the completions. -/
  | handle
  /-- The loop is left. -/
  | leaving
  /-- The slots are dropped. -/
  | freed
  /-- The ring is dropped. -/
  | over
  deriving DecidableEq, Repr

structure State where
  phase : Phase
  /-- Slots in the submission queue, and at the kernel. -/
  sq : List Nat
  armed : List Nat
  /-- The completion queue, and the completions in work. -/
  cq : List (Nat × Item)
  batch : List (Nat × Item)
  closed : Bool
  shutdown : Bool
  rxOpen : Bool
  /-- What the receiver was given. -/
  out : List Item
  /-- What the kernel completed, in its order. -/
  taken : List Item
  /-- Datagrams that the kernel wrote to memory that was freed. -/
  wild : Nat
  deriving DecidableEq, Repr

/-- `RING_ENTRIES` -/
def ringEntries : Nat := 64
/-- `RECV_SLOTS` -/
def recvSlots : Nat := 16

/-- All slots are submitted. -/
def init (slots : Nat) : State :=
  ⟨.check, [], List.range slots, [], [], false, false, true, [], [], 0⟩

inductive Event where
  /-- The kernel completes the receive of a slot. -/
  | complete (slot : Nat) (x : Item)
  /-- The thread goes on. -/
  | thread
  /-- `submit_with_args` or `submit` fails. -/
  | ringFails
  /-- The receiver is dropped. -/
  | dropRx
  deriving DecidableEq, Repr

def complete (s : State) (i : Nat) (x : Item) : State :=
  if i ∈ s.armed then
    { s with
      armed := s.armed.erase i
      cq := s.cq ++ [(i, x)]
      taken := s.taken ++ [x]
      wild := if s.phase = .freed ∧ x ≠ none then s.wild + 1 else s.wild }
  else s

/-- `push_recv`, with a flush when the queue is full. -/
def push (s : State) (i : Nat) : State :=
  if s.sq.length < ringEntries then { s with sq := s.sq ++ [i] }
  else
    { s with
      armed := s.armed ++ s.sq
      sq := [i] }

/-- What the thread does with one completion. -/
def take (s : State) (i : Nat) (x : Item) (rest : List (Nat × Item)) : State :=
  push
    { s with
      batch := rest
      out := if s.rxOpen then s.out ++ [x] else s.out
      closed := s.closed || !s.rxOpen || x == none } i

def thread (s : State) : State :=
  match s.phase with
  | .check =>
    if s.shutdown then { s with phase := .leaving }
    else
      { s with
        phase := .reap
        armed := s.armed ++ s.sq
        sq := [] }
  | .reap =>
    { s with
      phase := .handle
      batch := s.cq
      cq := []
      closed := false }
  | .handle =>
    match s.batch with
    | (i, x) :: rest => take s i x rest
    | [] =>
      if s.closed then { s with phase := .leaving }
      else
        { s with
          phase := .check
          armed := s.armed ++ s.sq
          sq := [] }
  | .leaving => { s with phase := .freed }
  | .freed =>
    { s with
      phase := .over
      armed := [] }
  | .over => s

def ringFails (s : State) : State :=
  match s.phase with
  | .check => { s with phase := .leaving }
  | .handle => if s.batch = [] then { s with phase := .leaving } else s
  | _ => s

def step (s : State) : Event → State
  | .complete i x => complete s i x
  | .thread => thread s
  | .ringFails => ringFails s
  | .dropRx =>
    { s with
      shutdown := true
      rxOpen := false }

def run (s : State) : List Event → State
  | [] => s
  | e :: es => run (step s e) es

end Verif.Uring

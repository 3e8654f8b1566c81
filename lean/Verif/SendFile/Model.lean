/-!
# From a source of bytes to the groups of a transfer

How a file, or any other source, is read, encrypted in groups and handed to the session, with
sources that are shorter or longer than they said, with failures and with stops.  Sources:

* `citadel_crypt/src/scramble/streaming_crypt_scrambler.rs:195-290` (`scramble_encrypt_source`,
  `stopper`, `file_streamer`), `316-430` (`AsyncCryptScrambler`);
* `citadel_proto/src/proto/session.rs:1440-1443` (the channel of five groups), `1697-1893` (the task
  that takes the groups, and the hook at its end; the hook deletes the file when it was pulled
  with `delete_on_pull`, `packet_processor/file_packet.rs:270-300`);
* `citadel_proto/src/proto/state_container/outbound_transfer.rs:82-105` (refusal of the receiver).

Simplifications.  Core Lean only.  Encryption is a choice: it works or fails.  What the source will
give is fixed when it is opened; its announced length is a number of its own.  Ids are natural
numbers.  One transfer.
-/

namespace Verif.SendFile

abbrev Bytes := List UInt8

/-- `MAX_BYTES_PER_GROUP`, crypt_splitter.rs:47. -/
def maxGroup : Nat := 10485760

/-- `DEFAULT_BYTES_PER_GROUP`, streaming_crypt_scrambler.rs. -/
def defaultGroup : Nat := 3145728

/-- `GroupSenderDevice`: the id of the group and its contents. -/
structure Group where
  id : Nat
  bytes : Bytes
  deriving DecidableEq, Repr

inductive Msg where
  | ok (g : Group) | err
  deriving DecidableEq, Repr

/-- What `file_streamer` is doing. -/
inductive Phase where
  /-- About to poll the scrambler, which has no task. -/
  | reading
  /-- The scrambler waits for its encryption task. -/
  | task (b : Bytes)
  /-- Waits for room in the channel. -/
  | holding (g : Group)
  /-- The select has ended. -/
  | done
  deriving DecidableEq, Repr

/-- What the task of the session is doing. -/
inductive Cons where
  /-- Waits for `start_rx`. -/
  | waiting
  | ready
  /-- Waits for `next_gs_alerter_rx`. -/
  | paused
  /-- Returned early. -/
  | gone
  /-- Pulled everything and executed the hook. -/
  | closed
  deriving DecidableEq, Repr

structure State where
  /-- `file_len` -/
  len : Nat
  /-- `max_bytes_per_group` -/
  size : Nat
  /-- `group_id` -/
  start : Nat
  /-- What the source has not given yet. -/
  rest : Bytes
  cursor : Nat
  rendered : Nat
  phase : Phase
  queue : List Msg
  cons : Cons
  /-- Groups that were registered for sending, and whose header was sent. -/
  sent : List Group
  /-- Errors reported to the kernel. -/
  reports : Nat
  deriving DecidableEq, Repr

inductive Open where
  /-- Division by zero. -/
  | panic
  /-- `GroupSizeTooLarge` -/
  | tooLarge
  /-- Announces the number of groups. -/
  | ok (groups : Nat) (s : State)

/-- `scramble_encrypt_source`. -/
def «open» (data : Bytes) (len : Nat) (size? : Option Nat) (start : Nat) : Open :=
  let size := size?.getD defaultGroup
  if size > maxGroup then .tooLarge
  else if size = 0 then .panic
  else .ok ((len + size - 1) / size)
    ⟨len, size, start, data, 0, 0, .reading, [], .waiting, [], 0⟩

inductive Event where
  | read
  | enc (ok : Bool)
  | push
  /-- The stopper: used, or dropped. -/
  | stop (dropped : Bool)
  /-- The receiver accepts or refuses. -/
  | begin (ok : Bool)
  | take
  | alert
  /-- The session has ended, or another of the early returns. -/
  | quit
  deriving DecidableEq, Repr

/-- `poll_scramble_next_group` without a task. -/
def read (s : State) : State :=
  match s.phase with
  | .reading =>
    if s.cursor = s.len then { s with phase := .done }
    else
      let n := min (s.len - s.cursor) s.size
      if s.rest.length < n then { s with phase := .done }
      else { s with phase := .task (s.rest.take n), rest := s.rest.drop n }
  | _ => s

/-- `poll_task`, when the task has ended. -/
def enc (s : State) (ok : Bool) : State :=
  match s.phase with
  | .task b =>
    if ok then
      { s with
        phase := .holding ⟨s.start + s.rendered, b⟩
        rendered := s.rendered + 1
        cursor := s.cursor + b.length }
    else { s with phase := .done }
  | _ => s

/-- The receiving end of the channel exists. -/
def Cons.there : Cons → Bool
  | .gone => false
  | .closed => false
  | _ => true

/-- `group_sender.send` -/
def push (s : State) : State :=
  match s.phase with
  | .holding g =>
    if s.cons.there = false then { s with phase := .done }
    else if s.queue.length < 5 then { s with phase := .reading, queue := s.queue ++ [.ok g] }
    else s
  | _ => s

/-- The other branch of the select; an error is handed over with `try_send`. -/
def stop (s : State) (dropped : Bool) : State :=
  match s.phase with
  | .done => s
  | _ =>
    if dropped = true ∧ s.queue.length < 5 ∧ s.cons.there = true then
      { s with phase := .done, queue := s.queue ++ [.err] }
    else { s with phase := .done }

def begin (s : State) (ok : Bool) : State :=
  match s.cons with
  | .waiting => { s with cons := if ok then .ready else .gone }
  | _ => s

/-- One turn of the loop over `group_sender_rx`. -/
def take (s : State) : State :=
  match s.cons with
  | .ready =>
    match s.queue with
    | .ok g :: q => { s with queue := q, sent := s.sent ++ [g], cons := .paused }
    | .err :: q => { s with queue := q, reports := s.reports + 1 }
    | [] => if s.phase = .done then { s with cons := .closed } else s
  | _ => s

def alert (s : State) : State :=
  match s.cons with
  | .paused => { s with cons := .ready }
  | _ => s

def quit (s : State) : State :=
  match s.cons with
  | .closed => s
  | _ => { s with cons := .gone }

def step (s : State) : Event → State
  | .read => read s
  | .enc ok => enc s ok
  | .push => push s
  | .stop d => stop s d
  | .begin ok => begin s ok
  | .take => take s
  | .alert => alert s
  | .quit => quit s

def run (s : State) : List Event → State
  | [] => s
  | e :: es => run (step s e) es

end Verif.SendFile

import Verif.Common.AssocMap
/-
Model of the session queue worker.
Source: /repo/citadel_proto/src/proto/session_queue_handler.rs lines 50-332; reserved insertions:
/repo/citadel_proto/src/proto/session.rs lines 1174-1270; ordinary insertions: session.rs line 1808 and
/repo/citadel_proto/src/proto/packet_processor/primary_group_packet.rs line 268 (the index is a group id).

Simplifications: indices are unbounded naturals (the Rust `usize` sum `idx + 10 + rolling` can overflow for group ids
near 2^64). Time is abstract: any pending timer may be the next to expire, so durations only matter as data. A task
closure is a number; what it returns when called is chosen by the environment. Waker bookkeeping is left out. The
session not being in state `Disconnecting` is assumed (otherwise the worker just ends).
-/
namespace Verif.Queue
open Verif

/-- `QueueWorkerTicket`, lines 149-153. -/
inductive Ticket where
  | oneshot (idx cid : Nat)
  | periodic (idx cid : Nat)
deriving DecidableEq, Repr

/-- `QUEUE_WORKER_RESERVED_INDEX`, line 50. -/
def reservedIndex : Nat := 10

/-- `QueueWorkerResult`, lines 155-160. -/
inductive Result where
  | complete | incomplete | endSession | adjustPeriodicity
deriving DecidableEq, Repr

/-- `SessionQueueWorker` (lines 75-85) with its channel and handle counter (lines 87-91). `expirations` holds the
tickets with a pending timer. `crashed` is set where Rust would panic, `ended` when the stream has ended. -/
structure Worker where
  entries : AMap Ticket Nat
  expirations : List Ticket
  rx : List (Option Ticket × Nat)
  rollingHandle : Nat
  rollingWorker : Nat
  crashed : Bool
  ended : Bool
deriving DecidableEq, Repr

/-- `SessionQueueWorker::new`, lines 163-181. -/
def new : Worker :=
  { entries := [], expirations := [], rx := [], rollingHandle := 0, rollingWorker := 0, crashed := false, ended := false }

/-- What can be observed. `inserted` records a task that was silently replaced. -/
inductive Event where
  | scheduled
  | inserted (t : Ticket) (task : Nat) (replaced : Option Nat)
  | fired (t : Ticket) (task : Nat) (res : Result)
  | crash (t : Ticket)
  | nothing
deriving DecidableEq, Repr

/-- `SessionQueueWorker::insert_reserved`, lines 189-209. -/
def insertReserved (w : Worker) (keyOrig : Option Ticket) (task : Nat) : Worker × Event :=
  let key := keyOrig.getD (.oneshot (w.rollingWorker + reservedIndex + 1) 0)
  ({ w with expirations := w.expirations ++ [key], entries := w.entries.insert key task,
            rollingWorker := w.rollingWorker + 1 },
   .inserted key task (w.entries.get? key))

/-- Expiry of a `Oneshot` ticket in `poll_purge`, lines 253-259; the timer has already been taken out. -/
def fireOneshot (w : Worker) (t : Ticket) (res : Result) : Worker × Event :=
  if w.entries.contains t then
    ({ w with entries := w.entries.erase t, ended := res == .endSession },
     .fired t ((w.entries.get? t).getD 0) res)
  else ({ w with crashed := true }, .crash t)

/-- Expiry of a `Periodic` ticket in `poll_purge`, lines 261-293. -/
def firePeriodic (w : Worker) (t : Ticket) (res : Result) : Worker × Event :=
  if w.entries.contains t then
    let ev := Event.fired t ((w.entries.get? t).getD 0) res
    if res = .complete then ({ w with entries := w.entries.erase t }, ev)
    else if res = .endSession then ({ w with ended := true }, ev)
    else ({ w with expirations := w.expirations ++ [t] }, ev)
  else ({ w with crashed := true }, .crash t)

/-- `poll_purge`'s loop body for the expired ticket `t` (lines 249-295). -/
def fire (w : Worker) (t : Ticket) (res : Result) : Worker × Event :=
  let w := { w with expirations := w.expirations.erase t }
  match t with
  | .oneshot _ _ => fireOneshot w t res
  | .periodic _ _ => firePeriodic w t res

inductive Op where
  /-- `SessionQueueWorkerHandle::insert_ordinary`, lines 125-146. -/
  | ordinary (idx cid task : Nat)
  /-- `SessionQueueWorkerHandle::insert_reserved` / `insert_oneshot`, lines 101-121. -/
  | handleReserved (key : Option Ticket) (task : Nat)
  /-- `insert_reserved_fn` on the worker itself, lines 211-219. -/
  | workerReserved (key : Option Ticket) (task : Nat)
  /-- `poll_next` takes one item from the channel, lines 308-316. -/
  | recv
  /-- Some pending timer expires and the task returns `res`. -/
  | expire (t : Ticket) (res : Result)
deriving DecidableEq, Repr

/-- One step; nothing happens after a crash or the end of the stream. -/
def step (w : Worker) (op : Op) : Worker × Event :=
  if w.crashed || w.ended then (w, .nothing)
  else match op with
  | .ordinary idx cid task =>
    ({ w with rx := w.rx ++ [(some (.periodic (idx + reservedIndex + w.rollingHandle) cid), task)],
              rollingHandle := w.rollingHandle + 1 }, .scheduled)
  | .handleReserved key task => ({ w with rx := w.rx ++ [(key, task)] }, .scheduled)
  | .workerReserved key task => insertReserved w key task
  | .recv =>
    match w.rx with
    | [] => (w, .nothing)
    | (key, task) :: rest => insertReserved { w with rx := rest } key task
  | .expire t res => if t ∈ w.expirations then fire w t res else (w, .nothing)

/-- A whole history. -/
def run (w : Worker) : List Op → Worker × List Event
  | [] => (w, [])
  | op :: ops =>
    let r := step w op
    let r' := run r.1 ops
    (r'.1, r.2 :: r'.2)

end Verif.Queue

import Verif.Common.AssocMap
/-!
# The timers of a session

`citadel_proto/src/proto/session_queue_handler.rs`: a `DelayQueue` of keys (`expirations`) beside a map
from keys to functions (`entries`).

Simplifications:
* a timer is named by the number of its insertion (`n`); its function is not modelled, its result is a
  parameter of the step that runs it, so every behaviour of the functions is covered;
* the channel between the handle and the worker is merged with the insertion (the worker empties the
  channel before it looks at the deadlines, lines 308-315);
* time is counted in milliseconds;
* one-shots without key (`insert_oneshot`, lines 113-122) are dead code and left out;
* `usize` has 64 bits and additions wrap as in a release build.
-/
namespace Verif.Timers

/-- session_queue_handler.rs 149-153, `QueueWorkerTicket`. -/
inductive Key where
  | oneshot (i cid : Nat)
  | periodic (i cid : Nat)
deriving DecidableEq, Repr

/-- session_queue_handler.rs 155-160, `QueueWorkerResult`. -/
inductive Res where
  | complete
  | incomplete
  | endSession
  | adjust (period : Nat)
deriving DecidableEq, Repr

/-- An entry of the map: which timer it is and its period. -/
structure Entry where
  n : Nat
  period : Nat
deriving DecidableEq, Repr

/-- An element of the `DelayQueue`; `owner` is the timer it was put there for. -/
structure Exp where
  key : Key
  deadline : Nat
  owner : Nat
deriving DecidableEq, Repr

/-- One call of a timer function: the deadline belonged to `owner`, the function called is that of `ran`. -/
structure Call where
  owner : Nat
  ran : Nat
  at_ : Nat
  res : Res
deriving DecidableEq, Repr

structure St where
  now : Nat
  entries : AMap Key Entry
  expirations : List Exp
  /-- `rolling_idx` of the handle -/
  rolling : Nat
  /-- the number of the next timer -/
  next : Nat
  calls : List Call
  /-- an `unwrap` of `None` in the task of the worker -/
  panicked : Bool
  /-- the worker returned `Error::shutdown` -/
  ended : Bool
deriving DecidableEq, Repr

/-- `usize` -/
def usize : Nat := 2 ^ 64

/-- session_queue_handler.rs 52, `QUEUE_WORKER_RESERVED_INDEX`. -/
def reservedIdx : Nat := 10

/-- constants.rs 69, `GROUP_EXPIRE_TIME_MS`. -/
def groupExpire : Nat := 60000

/-- session_queue_handler.rs 190-208, `SessionQueueWorker::insert_reserved`. -/
def insertReserved (s : St) (k : Key) (period : Nat) : St :=
  { s with
    expirations := s.expirations ++ [{ key := k, deadline := s.now + period, owner := s.next }]
    entries := s.entries.insert k { n := s.next, period := period }
    next := s.next + 1 }

/-- session_queue_handler.rs 135-142: the key of an ordinary timer. -/
def ordinaryKey (idx cid rolling : Nat) : Key :=
  .periodic ((idx + reservedIdx + rolling) % usize) cid

/-- session_queue_handler.rs 125-146, `insert_ordinary`. -/
def insertOrdinary (s : St) (idx cid period : Nat) : St :=
  insertReserved { s with rolling := s.rolling + 1 } (ordinaryKey idx cid s.rolling) period

/-- session_queue_handler.rs 247-289: the element `e` has just left the `DelayQueue`; `r` is what the
function returns. -/
def expire (s : St) (e : Exp) (r : Res) : St :=
  match s.entries.get? e.key with
  | none => { s with panicked := true }
  | some t =>
    let s : St := { s with calls := s.calls ++ [{ owner := e.owner, ran := t.n, at_ := s.now, res := r }] }
    match e.key with
    | .oneshot _ _ =>
      { s with entries := s.entries.erase e.key, ended := r == Res.endSession }
    | .periodic _ _ =>
      match r with
      | .complete => { s with entries := s.entries.erase e.key }
      | .endSession => { s with ended := true }
      | .adjust p =>
        { s with expirations := s.expirations ++ [{ key := e.key, deadline := s.now + p, owner := t.n }] }
      | .incomplete =>
        { s with
          expirations := s.expirations ++ [{ key := e.key, deadline := s.now + t.period, owner := t.n }] }

inductive Act where
  /-- a group of a transfer registers its timer -/
  | insert (idx cid period : Nat)
  /-- time passes -/
  | tick (d : Nat)
  /-- `poll_expired` yields the `j`-th element, whose function returns `r` -/
  | fire (j : Nat) (r : Res)
deriving DecidableEq, Repr

def step (s : St) : Act → St
  | .insert idx cid period => if s.panicked || s.ended then s else insertOrdinary s idx cid period
  | .tick d => { s with now := s.now + d }
  | .fire j r =>
    if s.panicked || s.ended then s
    else
      match s.expirations[j]? with
      | none => s
      | some e =>
        if s.now < e.deadline then s
        else expire { s with expirations := s.expirations.eraseIdx j } e r

def run (s : St) : List Act → St
  | [] => s
  | a :: as => run (step s a) as

def empty : St :=
  { now := 0, entries := [], expirations := [], rolling := 0, next := 0, calls := [],
    panicked := false, ended := false }

/-- session.rs 1174-1262: the timers that every session has; only the client rekeys (1190). The number of
milliseconds of the rekey timer depends on the settings. -/
def start (server : Bool) (rekeyPeriod : Nat) : St :=
  let s := insertReserved empty (.oneshot 0 0) 20000
  let s := if server then s else insertReserved s (.periodic 1 0) rekeyPeriod
  let s := insertReserved s (.periodic 2 0) (15 * 60000)
  insertReserved s (.periodic 3 0) 60000

end Verif.Timers

/-
Model of the anti-replay container.
Source: /repo/citadel_pqcrypto/src/replay_attack_container.rs lines 62-148.

A `u64` is modelled as a `Nat`; every saturating operation of the Rust code is written out.
The `HashSet<u64>` is modelled as a `List Nat` (membership, insertion of an absent element, filtering).
The mutex makes each call atomic, so a concurrent history is a sequence of calls.
-/
namespace Verif.Replay

/-- `HISTORY_LEN`, replay_attack_container.rs line 62. -/
def historyLen : Nat := 1024

/-- `u64::MAX`. -/
def u64Max : Nat := 2 ^ 64 - 1

/-- `u64::saturating_add(1)`. -/
def satSucc (p : Nat) : Nat := min (p + 1) u64Max

/-- `AntiReplayAttackContainer`, lines 73-78: `history = (high_water, seen)` and `counter_out`. -/
structure Container where
  highWater : Nat
  seen : List Nat
  counterOut : Nat
deriving DecidableEq, Repr

/-- `Default::default`, lines 150-160. -/
def init : Container := { highWater := 0, seen := [], counterOut := 0 }

/-- `for stale in floor..new_floor { seen.remove(&stale); }`, lines 128-130. -/
def removeRange (seen : List Nat) (lo hi : Nat) : List Nat :=
  (List.range' lo (hi - lo)).foldl (fun s stale => s.filter (fun p => p != stale)) seen

/-- `on_pid_received`, lines 100-136. Natural-number subtraction is saturating, as in the code. -/
def onPidReceived (c : Container) (pid : Nat) : Container × Bool :=
  let floor := c.highWater - historyLen
  if pid < floor then
    (c, false)
  else if pid ∈ c.seen then
    (c, false)
  else
    let seen := pid :: c.seen
    let newHighWater := max c.highWater (satSucc pid)
    let newFloor := newHighWater - historyLen
    let seen :=
      if newFloor > floor then
        if newFloor - floor ≥ historyLen then
          seen.filter (fun p => decide (p ≥ newFloor))
        else
          removeRange seen floor newFloor
      else seen
    ({ c with highWater := newHighWater, seen := seen }, true)

/-- `get_next_pid`, lines 84-86 (`fetch_add(1)` wraps modulo 2^64). -/
def getNextPid (c : Container) : Container × Nat :=
  ({ c with counterOut := (c.counterOut + 1) % 2 ^ 64 }, c.counterOut)

/-- `reset`, lines 142-147. -/
def reset (_ : Container) : Container := init

/-- `has_tracked_packets`, lines 138-140. -/
def hasTrackedPackets (c : Container) : Bool := c.counterOut != 0 || c.highWater != 0

/-- The calls a user of the container can make. -/
inductive Op where
  | recv (pid : Nat)
  | next
  | reset
deriving DecidableEq, Repr

/-- What an observer sees of each call. -/
inductive Event where
  | accepted (pid : Nat)
  | rejected (pid : Nat)
  | issued (pid : Nat)
  | reset
deriving DecidableEq, Repr

/-- One call. -/
def step (c : Container) : Op → Container × Event
  | .recv p =>
    let r := onPidReceived c p
    (r.1, if r.2 then .accepted p else .rejected p)
  | .next => let r := getNextPid c; (r.1, .issued r.2)
  | .reset => (Replay.reset c, .reset)

/-- A whole history of calls: final state and the observed events, oldest first. -/
def run (c : Container) : List Op → Container × List Event
  | [] => (c, [])
  | op :: ops =>
    let r := step c op
    let r' := run r.1 ops
    (r'.1, r.2 :: r'.2)

end Verif.Replay

/-
Model of the two-endpoint lock `NetMutex`.
Source: /repo/netbeam/src/sync/primitives/net_mutex.rs.

Two endpoints, connected by two reliable FIFO channels (`conn`, trusted). Per endpoint a local `tokio::sync::Mutex`
protects the value; whoever holds it (the background handler while it listens, an acquirer, a guard, the drop code) is the
only one reading from the channel. The local mutex (trusted) is not modelled as such: an endpoint is in one of the states
below, and `lock` is possible only if neither a guard nor drop code nor a yielding handler holds it. Every received packet
is processed in one atomic step with the packets sent in reply. The endpoints start with the same value
(`sync_establish_init`, lines 233-270). Cancelled `lock` futures, stream errors and `Halt` (an endpoint that drops its
whole `NetMutex`) are left out.
-/
namespace Verif.NetMutex

/-- `enum UpdatePacket`, lines 338-345, without `Halt`. Values are numbers, request times are `i64`s as integers. -/
inductive Msg where
  | tryAcquire (t : Int)
  | released (v : Nat) (flag : Bool)
  | lockAcquired
  | releasedVerified
deriving DecidableEq, Repr

/-- Who runs `yield_lock`: an acquirer that lost, the drop code, or the background handler. -/
inductive Next where
  | guard
  | idle
  | bg
deriving DecidableEq, Repr

inductive St where
  /-- Nobody uses the lock; the background handler listens. -/
  | idle
  /-- `net_mutex_guard_acquirer` has sent `TryAcquire(t)`. -/
  | active (t : Int)
  /-- In the loop of `yield_lock`. -/
  | yielding (n : Next)
  /-- The user holds a `NetMutexGuard`. -/
  | guard
  /-- `net_mutex_drop_code` with `adjacent_trying_to_acquire`. -/
  | dropping (flag : Bool)
deriving DecidableEq, Repr

/-- One endpoint; `bg`: the background handler is running. -/
structure Node where
  st : St
  val : Nat
  bg : Bool
deriving DecidableEq, Repr

/-- `a` is the `Initiator`. -/
structure Sys where
  a : Node
  b : Node
  toA : List Msg
  toB : List Msg
deriving DecidableEq, Repr

def init (v : Nat) : Sys := { a := ⟨.idle, v, true⟩, b := ⟨.idle, v, true⟩, toA := [], toB := [] }

/-- Actions of one endpoint. -/
inductive Act where
  /-- `lock()` with request time `t`. -/
  | lock (t : Int)
  /-- The user writes through the guard. -/
  | write (v : Nat)
  /-- The user drops the guard. -/
  | unlock
  /-- The next packet is received. -/
  | recv
deriving DecidableEq, Repr

/-- `local_wins`, lines 404-408. -/
def wins (initiator : Bool) (local' remote : Int) : Bool :=
  if remote = local' then initiator else decide (remote > local')

/-- Reception by `passive_background_handler`, lines 524-560. -/
def recvIdle (x : Node) (m : Msg) : Node × List Msg :=
  match m with
  | .tryAcquire _ => ({ x with st := .yielding .bg }, [.released x.val false])
  | _ => (x, [])

/-- Reception by `net_mutex_guard_acquirer`, lines 375-441. -/
def recvActive (initiator : Bool) (x : Node) (t : Int) (m : Msg) : Node × List Msg :=
  match m with
  | .released v _ => ({ x with st := .guard, val := v }, [.lockAcquired, .releasedVerified])
  | .lockAcquired => (x, [])
  | .tryAcquire t' =>
    if wins initiator t t' then ({ x with st := .guard }, [.lockAcquired])
    else ({ x with st := .yielding .guard }, [])
  | .releasedVerified => (x, [])

/-- Reception by `yield_lock`, lines 466-504. An error ends the task that runs it. -/
def recvYield (x : Node) (n : Next) (m : Msg) : Node × List Msg :=
  match m with
  | .released v _ =>
    ({ x with st := (match n with | .guard => .guard | .idle => .idle | .bg => .idle), val := v },
      [.lockAcquired, .releasedVerified])
  | .releasedVerified => (x, [])
  | .lockAcquired => (x, [])
  | .tryAcquire _ => ({ x with st := .idle, bg := (match n with | .bg => false | _ => x.bg) }, [])

/-- Reception by `net_mutex_drop_code`, lines 303-328. -/
def recvDrop (x : Node) (flag : Bool) (m : Msg) : Node × List Msg :=
  match m with
  | .releasedVerified => ({ x with st := if flag then .yielding .idle else .idle }, [])
  | .tryAcquire _ => ({ x with st := .dropping true }, [])
  | _ => (x, [])

/-- One action: new endpoint, rest of its inbox, packets sent. -/
def act (initiator : Bool) (x : Node) (inbox : List Msg) : Act → Node × List Msg × List Msg
  | .lock t =>
    match x.st with
    | .idle => ({ x with st := .active t }, inbox, [.tryAcquire t])
    | _ => (x, inbox, [])
  | .write v =>
    match x.st with
    | .guard => ({ x with val := v }, inbox, [])
    | _ => (x, inbox, [])
  | .unlock =>
    match x.st with
    | .guard => ({ x with st := .dropping false }, inbox, [.released x.val true])
    | _ => (x, inbox, [])
  | .recv =>
    match inbox with
    | [] => (x, [], [])
    | m :: rest =>
      match x.st with
      | .idle => if x.bg then ((recvIdle x m).1, rest, (recvIdle x m).2) else (x, m :: rest, [])
      | .active t => ((recvActive initiator x t m).1, rest, (recvActive initiator x t m).2)
      | .yielding n => ((recvYield x n m).1, rest, (recvYield x n m).2)
      | .dropping f => ((recvDrop x f m).1, rest, (recvDrop x f m).2)
      | .guard => (x, m :: rest, [])

/-- `a o` / `b o`: an action of the initiator / of the other endpoint. -/
inductive Op where
  | a (o : Act)
  | b (o : Act)
deriving DecidableEq, Repr

def step (s : Sys) : Op → Sys
  | .a o =>
    let r := act true s.a s.toA o
    { a := r.1, b := s.b, toA := r.2.1, toB := s.toB ++ r.2.2 }
  | .b o =>
    let r := act false s.b s.toB o
    { a := s.a, b := r.1, toA := s.toA ++ r.2.2, toB := r.2.1 }

def after (v : Nat) (ops : List Op) : Sys := ops.foldl step (init v)

end Verif.NetMutex

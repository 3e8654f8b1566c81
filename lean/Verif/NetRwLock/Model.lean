/-
Model of the two-endpoint readers-writer lock `NetRwLock`.
Source: /repo/netbeam/src/sync/primitives/net_rwlock.rs.

Two endpoints, connected by two reliable FIFO channels (`conn`, trusted). Per endpoint a local `tokio::sync::Mutex` protects
the value; whoever holds it (the background handler while it listens, an acquirer, the guards, the drop code) is the only
one reading from the channel. Readers share the mutex guard in an `Arc`, and a copy of it in `local_active_read_lock` ("the
store") admits further local readers without asking the other endpoint. The local mutex (trusted) is not modelled as such:
an endpoint is in one of the states below, and a request is sent only from `idle`. Every received packet is processed in one
atomic step with the packets sent in reply; so is the drop of a guard (the count of the `Arc`, the removal from the store and
the release packet). The endpoints start with the same value (`sync_establish_init`). Cancelled futures, stream errors and
`Halt` (an endpoint that drops its whole `NetRwLock`) are left out.
-/
namespace Verif.NetRwLock

/-- `enum LockType`, lines 423-427. -/
inductive Kind where
  | read
  | write
deriving DecidableEq, Repr

/-- `enum UpdatePacket`, lines 871-879, without `Halt`; the lock type in `LockAcquired` and `ReleasedVerified` is read by
nobody. Values are numbers, request times are `i64`s as integers. -/
inductive Msg where
  | tryAcquire (t : Int) (k : Kind)
  | releasedWrite (v : Nat)
  | releasedRead
  | lockAcquired
  | releasedVerified
deriving DecidableEq, Repr

/-- What an endpoint is doing. The kind called `hold` is the variant of `LocalLockHolder`. -/
inductive St where
  /-- Nobody uses the lock; the background handler listens. -/
  | idle
  /-- In the loop of `acquire_lock(want)` after `TryAcquire(t, want)`. -/
  | active (want hold : Kind) (t : Int)
  /-- `acquire_lock(want)` lost against the other endpoint and is in `yield_lock`. -/
  | losing (want hold : Kind) (t : Int)
  /-- The background handler is in `yield_lock`; `n` local readers entered through the store. -/
  | lent (hold : Kind) (n : Nat)
  /-- The user has a write guard (over a `Write` holder). -/
  | writing
  /-- The user has `n + 1` read guards (over `Read` holders, one more is in the store). -/
  | reading (n : Nat)
  /-- The user has a read guard over a `Write` holder. -/
  | misRead
  /-- The user has a write guard over a `Read` holder (one more in the store), and `n` read guards. -/
  | misWrite (n : Nat)
  /-- Drop code of a holder, with `adjacent_trying_to_acquire`; `some n`: the holder is also in the store and the user has
  `n` read guards. -/
  | dropping (hold : Kind) (adj : Bool) (store : Option Nat)
  /-- `yield_lock` called by the drop code. -/
  | dropYield (hold : Kind) (store : Option Nat)
  /-- Only the store holds the local mutex. -/
  | leaked
deriving DecidableEq, Repr

/-- One endpoint; `panics`: code of the lock has panicked in a task of the user. -/
structure Node where
  st : St
  val : Nat
  panics : Bool
deriving DecidableEq, Repr

/-- `a` is the `Initiator`. -/
structure Sys where
  a : Node
  b : Node
  toA : List Msg
  toB : List Msg
deriving DecidableEq, Repr

def init (v : Nat) : Sys := { a := ⟨.idle, v, false⟩, b := ⟨.idle, v, false⟩, toA := [], toB := [] }

/-- Actions of one endpoint. -/
inductive Act where
  /-- `read()` / `write()`, with the time of the request if one is sent. -/
  | request (k : Kind) (t : Int)
  /-- The user writes through a write guard. -/
  | write (v : Nat)
  /-- The user drops a read guard / a write guard. -/
  | release (k : Kind)
  /-- The next packet is received. -/
  | recv
deriving DecidableEq, Repr

/-- `local_wins`, lines 797-801. -/
def wins (initiator : Bool) (local' remote : Int) : Bool :=
  if remote = local' then initiator else decide (remote > local')

/-- The packet at the beginning of `yield_lock` (lines 552-564) and of the drop code (lines 361-373). -/
def releaseMsg (hold : Kind) (val : Nat) : Msg :=
  match hold with
  | .read => .releasedRead
  | .write => .releasedWrite val

/-- The guard returned by `acquire_lock(want)` when its holder is `hold`: `fx` is the constructor of the guard asked for,
the store is filled if the holder is `Read` (lines 751-754, 766-769, 789-792, 808-811). -/
def granted (want hold : Kind) : St :=
  match want, hold with
  | .read, .read => .reading 0
  | .read, .write => .misRead
  | .write, .write => .writing
  | .write, .read => .misWrite 0

/-- The state when a holder that is also in the store is dropped and `n` read guards remain. -/
def leftIn (store : Option Nat) : St :=
  match store with
  | none => .idle
  | some 0 => .leaked
  | some (n + 1) => .reading n

/-- Reception by `passive_background_handler`, lines 636-676. -/
def recvIdle (x : Node) (m : Msg) : Node × List Msg :=
  match m with
  | .tryAcquire _ k => ({ x with st := .lent k 0 }, [releaseMsg k x.val])
  | _ => (x, [])

/-- Reception by `acquire_lock`, lines 724-868. After a lost conflict the holder has the kind of the remote request, and the
test before "undo" (line 837) compares these two kinds: the holder is never turned back. -/
def recvActive (initiator : Bool) (x : Node) (want hold : Kind) (t : Int) (m : Msg) : Node × List Msg :=
  match m with
  | .releasedWrite v => ({ x with st := granted want hold, val := v }, [.releasedVerified, .lockAcquired])
  | .releasedRead => ({ x with st := granted want hold }, [.releasedVerified, .lockAcquired])
  | .lockAcquired => (x, [])
  | .tryAcquire t' k =>
    if k = .read ∧ hold = .read then ({ x with st := granted want hold }, [.releasedRead])
    else if wins initiator t t' then ({ x with st := granted want hold }, [.lockAcquired])
    else ({ x with st := .losing want k t }, [releaseMsg k x.val])
  | .releasedVerified => (x, [])

/-- Reception in the loop of `yield_lock`, lines 566-609: `some` if it returns, with the new value. -/
def recvYield (hold : Kind) (val : Nat) (m : Msg) : Option Nat :=
  match m, hold with
  | .releasedWrite v, .write => some v
  | .releasedRead, .read => some val
  | _, _ => none

/-- Reception by `net_rwlock_guard_drop_code`, lines 376-419. -/
def recvDrop (x : Node) (hold : Kind) (adj : Bool) (store : Option Nat) (m : Msg) : Node × List Msg :=
  match m with
  | .releasedWrite _ => (x, [])
  | .releasedRead => (x, if hold = .read then [.releasedVerified] else [])
  | .releasedVerified =>
    if adj then ({ x with st := .dropYield hold store }, [releaseMsg hold x.val])
    else ({ x with st := leftIn store }, [])
  | .tryAcquire _ _ => ({ x with st := .dropping hold true store }, [])
  | .lockAcquired => (x, [])

/-- What the caller of `yield_lock` does when it returns: the background handler keeps the store if local readers use it
(lines 655-662), the acquirer goes on waiting, the drop code ends. -/
def afterYield : St → St
  | .lent _ 0 => .idle
  | .lent _ (n + 1) => .reading n
  | .losing want hold t => .active want hold t
  | .dropYield _ store => leftIn store
  | s => s

/-- Reception of a packet; `none`: nobody listens. -/
def recv (initiator : Bool) (x : Node) (m : Msg) : Option (Node × List Msg) :=
  let yielding (hold : Kind) : Node × List Msg :=
    match recvYield hold x.val m with
    | some v => ({ x with st := afterYield x.st, val := v }, [.releasedVerified])
    | none => (x, [])
  match x.st with
  | .idle => some (recvIdle x m)
  | .active want hold t => some (recvActive initiator x want hold t m)
  | .losing _ hold _ => some (yielding hold)
  | .lent hold _ => some (yielding hold)
  | .dropYield hold _ => some (yielding hold)
  | .dropping hold adj store => some (recvDrop x hold adj store m)
  | _ => none

/-- `acquire_read` (lines 222-250) and `acquire_write` (lines 297-306): new state and packet. A read is granted at once if
the store is filled and somebody else still has the holder. Otherwise the request is sent when the local mutex is free. -/
def request (s : St) (k : Kind) (t : Int) : St × List Msg :=
  match k, s with
  | .read, .reading n => (.reading (n + 1), [])
  | .read, .lent .read n => (.lent .read (n + 1), [])
  | .read, .misWrite n => (.misWrite (n + 1), [])
  | .read, .dropping hold adj (some n) => (.dropping hold adj (some (n + 1)), [])
  | .read, .dropYield hold (some n) => (.dropYield hold (some (n + 1)), [])
  | _, .idle => (.active k k t, [.tryAcquire t k])
  | _, _ => (s, [])

/-- Drop of a read guard, lines 260-276: the last one (two references: this one and the store) empties the store and starts
the drop code. On a `Write` holder `arc_strong_count().unwrap()` panics; unwinding frees the local mutex. -/
def releaseRead (x : Node) : Node × List Msg :=
  match x.st with
  | .reading 0 => ({ x with st := .dropping .read false none }, [.releasedRead])
  | .reading (n + 1) => ({ x with st := .reading n }, [])
  | .lent .read (n + 1) => ({ x with st := .lent .read n }, [])
  | .misWrite (n + 1) => ({ x with st := .misWrite n }, [])
  | .dropping hold adj (some (n + 1)) => ({ x with st := .dropping hold adj (some n) }, [])
  | .dropYield hold (some (n + 1)) => ({ x with st := .dropYield hold (some n) }, [])
  | .misRead => ({ x with st := .idle, panics := true }, [])
  | _ => (x, [])

/-- Drop of a write guard, lines 321-330: starts the drop code of the holder, whatever its kind, and leaves the store. -/
def releaseWrite (x : Node) : Node × List Msg :=
  match x.st with
  | .writing => ({ x with st := .dropping .write false none }, [.releasedWrite x.val])
  | .misWrite n => ({ x with st := .dropping .read false (some n) }, [.releasedRead])
  | _ => (x, [])

/-- One action: new endpoint, rest of its inbox, packets sent. Writing through a write guard over a `Read` holder panics
(`assert_write_mut`, lines 471-478) and drops the guard. -/
def act (initiator : Bool) (x : Node) (inbox : List Msg) : Act → Node × List Msg × List Msg
  | .request k t => ({ x with st := (request x.st k t).1 }, inbox, (request x.st k t).2)
  | .write v =>
    match x.st with
    | .writing => ({ x with val := v }, inbox, [])
    | .misWrite _ => ({ (releaseWrite x).1 with panics := true }, inbox, (releaseWrite x).2)
    | _ => (x, inbox, [])
  | .release .read => ((releaseRead x).1, inbox, (releaseRead x).2)
  | .release .write => ((releaseWrite x).1, inbox, (releaseWrite x).2)
  | .recv =>
    match inbox with
    | [] => (x, [], [])
    | m :: rest =>
      match recv initiator x m with
      | some r => (r.1, rest, r.2)
      | none => (x, m :: rest, [])

/-- `a o` / `b o`: an action of the initiator / of the other endpoint. -/
inductive Op where
  | a (o : Act)
  | b (o : Act)
deriving DecidableEq, Repr

def step (s : Sys) : Op → Sys
  | .a o =>
    let r := act true s.a s.toA o
    { a := r.1, b := s.b, toA := r.2.1, toB := s.toB ++ r.2.2 }
  | .b o =>
    let r := act false s.b s.toB o
    { a := s.a, b := r.1, toA := s.toA ++ r.2.2, toB := r.2.1 }

def after (v : Nat) (ops : List Op) : Sys := ops.foldl step (init v)

end Verif.NetRwLock

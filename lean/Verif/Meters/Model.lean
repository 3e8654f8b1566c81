/-!
# The time of the last confirmed packet, and the statistics of transfers

Source: `citadel_proto/src/proto/state_subcontainers/meta_expiry_container.rs:33-63`
(`MetaExpiryState`), `citadel_proto/src/constants.rs:72` (the time), and
`citadel_proto/src/proto/transfer_stats.rs:25-66` (`TransferStats`).

Threads confirm packets at the same time: each reads the clock and then, later, puts what it read
into the atomic with `fetch_max`.

Simplifications.  Core Lean only.  The clock is that since `base`, in nanoseconds.  A rate is a
fraction: how `f64` rounds is left out, and so is the jitter.  `isize` has 64 bits; subtractions of
bytes and of timestamps do not overflow.
-/

namespace Verif.Meters

/-! ## `MetaExpiryState` -/

structure Expiry where
  now : Nat
  /-- `last_valid_ns` -/
  last : Nat
  /-- What threads have read and not yet stored. -/
  held : List Nat
  /-- What was stored, as read from the clock. -/
  stored : List Nat
  deriving DecidableEq, Repr

def fresh : Expiry := ⟨0, 0, [], []⟩

/-- `as u64` -/
def u64 (n : Nat) : Nat := n % 2 ^ 64

/-- `GROUP_EXPIRE_TIME_MS`, in nanoseconds. -/
def expireNs : Nat := 60000 * 1000000

def Expiry.expired (s : Expiry) : Bool := u64 s.now - s.last > u64 expireNs

inductive Event where
  | pass (ns : Nat)
  /-- A thread reads the clock. -/
  | read
  /-- The thread that holds the `k`th value stores it. -/
  | store (k : Nat)
  deriving DecidableEq, Repr

def step (s : Expiry) : Event → Expiry
  | .pass ns => { s with now := s.now + ns }
  | .read => { s with held := s.held ++ [s.now] }
  | .store k =>
    match s.held[k]? with
    | none => s
    | some t =>
      { s with
        last := max s.last (u64 t)
        held := s.held.eraseIdx k
        stored := t :: s.stored }

def run (s : Expiry) : List Event → Expiry
  | [] => s
  | e :: es => run (step s e) es

/-! ## `TransferStats` -/

structure Stats where
  timestamp : Int
  window : Int
  /-- Bytes and seconds. -/
  rate : Int × Int
  total : Int
  deriving DecidableEq, Repr

def Stats.new (timestamp bytes : Int) : Stats := ⟨timestamp, bytes, (0, 1), 0⟩

/-- `wrapping_add` of `isize` -/
def wrappingAdd (a b : Int) : Int := (a + b).bmod (2 ^ 64)

/-- `add_assign`: the division of the nanoseconds is one of integers. -/
def Stats.add (s r : Stats) : Stats :=
  ⟨r.timestamp, r.window, (r.window - s.window, (r.timestamp - s.timestamp).tdiv 1000000000),
    wrappingAdd s.total r.window⟩

end Verif.Meters

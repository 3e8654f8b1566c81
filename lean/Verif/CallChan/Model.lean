/-!
# Request and response channels of netbeam

`netbeam/src/sync/callback_channel.rs` (the sender of the response travels with the request) and
`netbeam/src/sync/tracked_callback_channel.rs` (it stays in a map under a number).

Simplifications:
* numbers are natural numbers; the counter of the program is an `AtomicU64`, so this is exact for
  fewer than 2^64 - 1 requests;
* a call is identified with the number of its request, in both channels;
* a `send` without a callback either gets its place at once or is not made;
* requests that wait for a place in the bounded channel get it in any order.
-/
namespace Verif.CallChan

inductive Status where
  /-- no such call yet -/
  | unused
  /-- waits for a place in the channel with this payload -/
  | blocked (x : Nat)
  /-- waits for the response -/
  | waiting
  | ok (r : Nat)
  | errSend
  | errRecv
  /-- the future of the call was dropped -/
  | gone
deriving DecidableEq, Repr

structure St where
  cap : Nat
  /-- `id`: the next number; tracked_callback_channel.rs 118 begins at 1 -/
  next : Nat
  /-- numbers that have a sender in `map` (tracked channel only) -/
  map : List Nat
  /-- requests in the channel -/
  queue : List (Nat × Nat)
  /-- requests that the receiver has taken and not dropped -/
  held : List (Nat × Nat)
  /-- the receiver exists -/
  rx : Bool
  status : Nat → Status
  /-- number of responses that were refused -/
  refused : Nat

def St.init (cap : Nat) : St :=
  { cap := cap, next := 1, map := [], queue := [], held := [], rx := true,
    status := fun _ => .unused, refused := 0 }

def set (f : Nat → Status) (i : Nat) (v : Status) : Nat → Status := fun j => if j = i then v else f j

inductive Act where
  | send (x : Nat)
  /-- a call that waits for a place is polled -/
  | resume (i : Nat)
  /-- the future of the call is dropped -/
  | cancel (i : Nat)
  | sendNo (x : Nat)
  /-- the receiver takes a request -/
  | recv
  /-- the holder of the request `p` responds with `r` -/
  | reply (p : Nat × Nat) (r : Nat)
  /-- the holder drops the request -/
  | discard (p : Nat × Nat)
  | dropRx
deriving DecidableEq, Repr

/-! ## tracked_callback_channel.rs -/

/-- 136-150: the push of a request whose sender is in the map. -/
def tPush (s : St) (i x : Nat) : St :=
  if s.rx then
    if s.queue.length < s.cap then
      { s with queue := s.queue ++ [(i, x)], status := set s.status i .waiting }
    else { s with status := set s.status i (.blocked x) }
  else { s with map := s.map.filter (· != i), status := set s.status i .errSend }

def tStep (s : St) : Act → St
  -- 128-153
  | .send x => tPush { s with next := s.next + 1, map := s.next :: s.map } s.next x
  | .resume i =>
      match s.status i with
      | .blocked x => tPush s i x
      | _ => s
  | .cancel i =>
      match s.status i with
      | .blocked _ => { s with status := set s.status i .gone }
      | .waiting => { s with status := set s.status i .gone }
      | _ => s
  -- 156-166
  | .sendNo x =>
      if s.rx && decide (s.queue.length < s.cap) then { s with queue := s.queue ++ [(0, x)] } else s
  -- 191-198
  | .recv =>
      match s.queue with
      | [] => s
      | p :: q => if s.rx then { s with queue := q, held := p :: s.held } else s
  -- 169-182; `new` (95-101) leaves the request with its holder
  | .reply p r =>
      if p ∈ s.held then
        if p.1 ∈ s.map then
          let m := s.map.filter (· != p.1)
          match s.status p.1 with
          | .waiting => { s with map := m, status := set s.status p.1 (.ok r) }
          | _ => { s with map := m, refused := s.refused + 1 }
        else { s with refused := s.refused + 1 }
      else s
  | .discard p => { s with held := s.held.erase p }
  | .dropRx => { s with rx := false, queue := [] }

def tRun (s : St) (as : List Act) : St := as.foldl tStep s

/-! ## callback_channel.rs -/

/-- What happens to a call when the sender of its response is dropped. -/
def lost : Status → Status
  | .waiting => .errRecv
  | v => v

/-- 89-93. -/
def cPush (s : St) (i x : Nat) : St :=
  if s.rx then
    if s.queue.length < s.cap then
      { s with queue := s.queue ++ [(i, x)], status := set s.status i .waiting }
    else { s with status := set s.status i (.blocked x) }
  else { s with status := set s.status i .errSend }

def cStep (s : St) : Act → St
  -- 87-95
  | .send x => cPush { s with next := s.next + 1 } s.next x
  | .resume i =>
      match s.status i with
      | .blocked x => cPush s i x
      | _ => s
  | .cancel i =>
      match s.status i with
      | .blocked _ => { s with status := set s.status i .gone }
      | .waiting => { s with status := set s.status i .gone }
      | _ => s
  -- 100-106: `None` instead of a sender
  | .sendNo x =>
      if s.rx && decide (s.queue.length < s.cap) then { s with queue := s.queue ++ [(0, x)] } else s
  -- 115-122
  | .recv =>
      match s.queue with
      | [] => s
      | p :: q => if s.rx then { s with queue := q, held := p :: s.held } else s
  -- the holder uses up the sender that came with the request; without one it cannot respond
  | .reply p r =>
      if p ∈ s.held ∧ p.1 ≠ 0 then
        match s.status p.1 with
        | .waiting => { s with held := s.held.erase p, status := set s.status p.1 (.ok r) }
        | _ => { s with held := s.held.erase p, refused := s.refused + 1 }
      else s
  | .discard p =>
      if p ∈ s.held then
        { s with held := s.held.erase p, status := set s.status p.1 (lost (s.status p.1)) }
      else s
  | .dropRx =>
      { s with rx := false, queue := [],
               status := fun i => if i ∈ s.queue.map (·.1) then lost (s.status i) else s.status i }

def cRun (s : St) (as : List Act) : St := as.foldl cStep s

end Verif.CallChan

/-!
UDP hole punching (`citadel_wire/src/udp_traversal`): one attempt of the two endpoints of a connection, `drive` in
`multi/mod.rs` with the punchers of `linear/mod.rs` (`try_method`) and `linear/method3.rs` (`recv_until`).

Every endpoint has some punchers, one per local socket, numbered from 0 (in the code: random ids). Each task of an endpoint
(the punchers, the resolver, the reader, the poller and the rebuilder) runs up to its next `.await` in one step. Packets
between punchers may be lost, delayed, repeated and delivered to every puncher of the other endpoint. Simplifications: the
coordinating channel is reliable and ordered, the network mutex is exclusive and keeps its value (see `NetMutex`), kill
signals are not lost in the bounded broadcast channel, tasks do not panic unless shown, and the future that `select_ok` leaves
over is dropped (in the code it stays unpolled until the `select!` is through, with the guard of the mutex if it has it; this
can only happen when the peer is through, `Half.canEnd`). Sockets are pairs: the local puncher,
and the puncher of the peer whose packet they are aimed at (`addr.unique_id`).
-/
namespace Verif.HolePunch

/-- What became of a puncher's task. -/
inductive PSt
  | running
  /-- ended with a socket to the puncher of the peer; not looked at yet -/
  | okay (peer : Nat)
  /-- ended with an error; not looked at yet -/
  | failed
  /-- ended by the kill signal; not looked at yet -/
  | skipped
  /-- looked at: its socket, if any, has been handed on -/
  | taken
  /-- looked at: in `local_failures` -/
  | listed
  deriving DecidableEq, Repr

structure Punch where
  /-- the sender of the SYN in `observed_addrs_on_syn`; there is at most one (`has_received_syn`) -/
  got : Option Nat := none
  st : PSt := .running
  deriving DecidableEq, Repr

/-- `DualStackCandidateSignal` -/
inductive Sig
  | winner (l r : Nat)
  | canEnd
  | allFailed
  deriving DecidableEq, Repr

/-- Where the resolver (378-484) is. -/
inductive RSt
  | idle
  /-- the socket is enqueued, 396 -/
  | pushed (i j : Nat)
  /-- at `net_mutex.lock()`, 409 -/
  | waiting (i j : Nat)
  /-- the mutex is held and has no value, 423 -/
  | holding (i j : Nat)
  /-- `Winner` is sent, 432-436 -/
  | sent (i j : Nat)
  /-- it ended or was dropped -/
  | ended
  /-- it ended with an error -/
  | dead
  deriving DecidableEq, Repr

structure Node where
  ps : List Punch
  /-- `current_enqueued_set`; the last one is popped first -/
  enq : List (Nat × Nat) := []
  /-- `post_rebuild_rx` -/
  rebuilt : List (Option (Nat × Nat)) := []
  /-- `commanded_winner` -/
  commanded : Option (Nat × Nat) := none
  /-- the kill signal -/
  killed : Option (Nat × Nat) := none
  res : RSt := .idle
  /-- the reader, the poller and the rebuilder are there -/
  reader : Bool := true
  poller : Bool := true
  rebuilder : Bool := true
  /-- `failure_occurred` -/
  failure : Bool := false
  inbox : List Sig := []
  /-- the final candidate -/
  final : Option (Nat × Nat) := none
  /-- the `select!` at the end (529-541) is through: all tasks but the punchers are dropped -/
  done : Bool := false
  /-- `drive` returned -/
  over : Bool := false
  result : Option (Nat × Nat) := none
  /-- `unreachable!`, 454 -/
  panicked : Bool := false
  /-- `submit_final_candidate` was called twice -/
  twice : Bool := false
  deriving DecidableEq, Repr

structure Net where
  a : Node
  b : Node
  /-- who holds the network mutex -/
  lock : Option Bool := none
  value : Option (Nat × Nat) := none
  deriving DecidableEq, Repr

def Net.get (w : Net) (s : Bool) : Node := if s then w.b else w.a
def Net.set (w : Net) (s : Bool) (x : Node) : Net := if s then { w with b := x } else { w with a := x }

def Net.init (n m : Nat) : Net := { a := { ps := List.replicate n {} }, b := { ps := List.replicate m {} } }

/-- A message for `s`. -/
def Net.post (w : Net) (s : Bool) (m : Sig) : Net := w.set s { w.get s with inbox := (w.get s).inbox ++ [m] }

/-- The guard of the mutex is dropped. -/
def Net.release (w : Net) (s : Bool) : Net := if w.lock = some s then { w with lock := none } else w

def Node.setP (x : Node) (i : Nat) (p : Punch) : Node := { x with ps := x.ps.set i p }

def Node.allListed (x : Node) : Bool := x.ps.all fun p => decide (p.st = .listed)

/-- `submit_final_candidate` and `signal_done`: the resolver is dropped. -/
def Node.submit (x : Node) (sock : Nat × Nat) : Node :=
  if x.final.isSome then { x with twice := true, done := true, res := .ended }
  else { x with final := some sock, done := true, res := .ended }

/-- `set_failure_occurred`, 260-276: the first time it tells the peer. -/
def Net.failure (w : Net) (s : Bool) : Net :=
  (w.set s { w.get s with failure := true }).post (!s) .allFailed

inductive Ev
  /-- a SYN of the peer's puncher `j` reaches puncher `i` of `s`, `method3.rs`:329-372 -/
  | syn (s : Bool) (i j : Nat)
  /-- the answer of the peer's puncher `j` to a SYN of puncher `i`, `method3.rs`:375-423 -/
  | ack (s : Bool) (i j : Nat)
  /-- time-out or an error -/
  | fail (s : Bool) (i : Nat)
  /-- puncher `i` gets the kill signal, `linear/mod.rs`:175-233 -/
  | kill (s : Bool) (i : Nat)
  /-- the resolver looks at the result of puncher `i` -/
  | next (s : Bool) (i : Nat)
  | check (s : Bool)
  | lock (s : Bool)
  | lockFail (s : Bool)
  | send (s : Bool)
  | win (s : Bool)
  /-- all punchers are through, 482 -/
  | endRes (s : Bool)
  | read (s : Bool)
  | tick (s : Bool)
  | rebuild (s : Bool)
  /-- poller and rebuilder have failed, 361-367 -/
  | bothFailed (s : Bool)
  /-- the end of `drive`, 543-565 -/
  | finish (s : Bool)
  deriving DecidableEq, Repr

def Net.step (w : Net) : Ev → Net
  | .syn s i j =>
    let x := w.get s
    match x.ps[i]? with
    | some p => if p.st = .running ∧ p.got = none ∧ j < (w.get (!s)).ps.length then w.set s (x.setP i { p with got := some j }) else w
    | none => w
  | .ack s i j =>
    let x := w.get s
    match x.ps[i]?, (w.get (!s)).ps[j]? with
    | some p, some q => if p.st = .running ∧ q.got = some i then w.set s (x.setP i { p with st := .okay j }) else w
    | _, _ => w
  | .fail s i =>
    let x := w.get s
    match x.ps[i]? with
    | some p => if p.st = .running then w.set s (x.setP i { p with st := .failed }) else w
    | none => w
  | .kill s i =>
    let x := w.get s
    match x.ps[i]?, x.killed with
    | some p, some (l, r) =>
      if p.st = .running then
        if i = l then
          if p.got = some r then w.set s { x.setP i { p with st := .skipped } with rebuilt := x.rebuilt ++ [some (i, r)] }
          else w.set s (x.setP i { p with st := .failed })
        else w.set s { x.setP i { p with st := .skipped } with rebuilt := x.rebuilt ++ [none] }
      else w
    | _, _ => w
  | .next s i =>
    let x := w.get s
    if x.done ∨ x.res ≠ .idle then w else
    match x.ps[i]? with
    | none => w
    | some p =>
      match p.st with
      | .okay j => w.set s { x.setP i { p with st := .taken } with enq := x.enq ++ [(i, j)], res := .pushed i j }
      | .skipped => w.set s (x.setP i { p with st := .taken })
      | .failed =>
        let x := x.setP i { p with st := .listed }
        if x.allListed then
          if x.failure then w.set s { x with res := .dead } else (w.set s x).failure s
        else w.set s x
      | _ => w
  | .check s =>
    let x := w.get s
    match x.res with
    | .pushed i j => w.set s { x with res := if x.commanded.isSome then .idle else .waiting i j }
    | _ => w
  | .lock s =>
    let x := w.get s
    match x.res with
    | .waiting i j =>
      if w.lock ≠ none then w else
      match w.value with
      | some v => w.set s { x with commanded := some v, res := .idle }
      | none => { w.set s { x with res := .holding i j } with lock := some s }
    | _ => w
  | .lockFail s =>
    let x := w.get s
    match x.res with
    | .waiting _ _ => w.set s { x with res := .idle }
    | _ => w
  | .send s =>
    let x := w.get s
    match x.res with
    | .holding i j => (w.set s { x with res := .sent i j }).post (!s) (.winner j i)
    | _ => w
  | .win s =>
    let x := w.get s
    match x.res with
    | .sent i j =>
      match x.enq.reverse.find? (fun e => decide (e.1 = i)) with
      | some sock => { (w.set s ({ x with enq := [] }.submit sock)).release s with value := some (j, i) }
      | none => (w.set s { x with enq := [], panicked := true, done := true, over := true, res := .ended }).release s
    | _ => w
  | .endRes s =>
    let x := w.get s
    if x.res = .idle ∧ x.ps.all (fun p => decide (p.st = .taken ∨ p.st = .listed)) then
      w.set s { x with res := .ended, reader := false }
    else w
  | .read s =>
    let x := w.get s
    if x.done ∨ x.reader = false then w else
    match x.inbox with
    | [] => w
    | m :: rest =>
      let w := w.set s { x with inbox := rest }
      match m with
      | .winner l r => w.set s { w.get s with commanded := some (l, r) }
      | .allFailed => if x.failure then w.set s { w.get s with reader := false } else w.failure s
      | .canEnd => (w.set s { w.get s with reader := false, res := .ended }).release s
  | .tick s =>
    let x := w.get s
    if x.done ∨ x.poller = false then w else
    match x.commanded with
    | none => w
    | some (l, r) =>
      let x := { x with killed := some (l, r) }
      match x.enq.reverse.find? (fun e => decide (e.2 = r)) with
      | some sock => (w.set s (x.submit sock)).release s
      | none =>
        let x := { x with enq := [] }
        match x.ps[l]? with
        | some p =>
          if p.st = .listed ∧ p.got = some r then (w.set s ((x.setP l { p with st := .taken }).submit (l, r))).release s
          else if x.allListed then w.set s { x with poller := false }
          else w.set s x
        | none => if x.allListed then w.set s { x with poller := false } else w.set s x
  | .rebuild s =>
    let x := w.get s
    if x.done ∨ x.rebuilder = false then w else
    match x.rebuilt with
    | [] => w
    | some sock :: rest => (w.set s ({ x with rebuilt := rest }.submit sock)).release s
    | none :: rest => w.set s { x with rebuilt := rest, rebuilder := !x.allListed }
  | .bothFailed s =>
    let x := w.get s
    if x.done ∨ x.poller ∨ x.rebuilder then w
    else if x.failure then (w.set s { x with done := true, over := true, res := .ended }).release s
    else ((w.failure s).set s { (w.failure s).get s with done := true, res := .ended }).release s
  | .finish s =>
    let x := w.get s
    if x.done = false ∨ x.over then w else
    match x.commanded with
    | none =>
      match x.inbox with
      | [] => w
      | _ :: rest => w.set s { x with inbox := rest, over := true, result := x.final }
    | some _ => (w.set s { x with over := true, result := x.final }).post (!s) .canEnd

def Net.steps (w : Net) : List Ev → Net
  | [] => w
  | ev :: evs => (w.step ev).steps evs

/-- States of attempts with `n` and `m` punchers. -/
inductive Reach (n m : Nat) : Net → Prop
  | init : Reach n m (Net.init n m)
  | step {w} (ev : Ev) : Reach n m w → Reach n m (w.step ev)

end Verif.HolePunch

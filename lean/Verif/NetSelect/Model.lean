/-
Model of the two-endpoint race `NetSelectOk`.
Source: /repo/netbeam/src/sync/operations/net_select_ok.rs lines 91-345 (`State`, `resolve`, `wrap_return`).

Two endpoints share two reliable FIFO channels (`conn`, trusted). The endpoint with preference is the `Initiator`. The
outcome of the raced computation is `some v` for `Ok(v)` and `none` for `Err`. Each endpoint runs `completer` (one atomic
step: it holds the mutex while it stores the outcome and sends) and `evaluator` (one atomic step per received message: it
holds the mutex until its reply is sent). When the evaluator returns the other branch of `select!` is dropped. Stream
errors are left out.
-/
namespace Verif.NetSelect

/-- `enum State` as sent over the wire (lines 91-103); `Pending` and `NonPreferredFinished` are never sent. -/
inductive Msg where
  | obtained
  | error
  | localWon
  | adjacentWins
  | bothFail
  | ping (info : Option Bool)
deriving DecidableEq, Repr

/-- `implies_remote_success`, lines 107-109. -/
def Msg.success : Msg → Bool
  | .obtained => true
  | .ping (some true) => true
  | _ => false

/-- `implies_remote_failure`, lines 111-113. -/
def Msg.failure : Msg → Bool
  | .error => true
  | .ping (some false) => true
  | _ => false

/-- `LocalState.local_state` before the end: `Pending`, `ObtainedValidResult`, `Error`. -/
inductive Local where
  | pending
  | obtained
  | error
deriving DecidableEq, Repr

/-- One endpoint. `ret` is `ret_value`; `finished` the returned `NetSelectOkResult` (result, other_side_succeeded). -/
structure Node where
  loc : Local
  ret : Option (Option Nat)
  finished : Option (Option Nat × Bool)
deriving DecidableEq, Repr

/-- Both endpoints (`p` has preference) and the channels. -/
structure Sys where
  p : Node
  n : Node
  toP : List Msg
  toN : List Msg
deriving DecidableEq, Repr

def fresh : Node := { loc := .pending, ret := none, finished := none }
def init : Sys := { p := fresh, n := fresh, toP := [], toN := [] }

/-- `local_state_info`, line 186. -/
def info (x : Node) : Option Bool := x.ret.map Option.isSome

/-- `completer`, lines 290-311: new state and message sent. -/
def complete (x : Node) (r : Option Nat) : Node × Msg :=
  let m := if r.isSome then (Local.obtained, Msg.obtained) else (Local.error, Msg.error)
  ({ x with loc := m.1, ret := some r }, m.2)

/-- `wrap_return` for a side that won: `result.and_then(|r| r.ok())`. -/
def ownResult (x : Node) : Option Nat := x.ret.join

/-- `evaluator` of the preferred endpoint, lines 191-255. -/
def recvP (x : Node) (m : Msg) : Node × Msg :=
  match x.loc with
  | .obtained => ({ x with finished := some (ownResult x, false) }, .localWon)
  | .error =>
    if m.success then ({ x with finished := some (none, m.success) }, .adjacentWins)
    else if m.failure then ({ x with finished := some (none, false) }, .bothFail)
    else (x, .ping (info x))
  | .pending =>
    if m.success then ({ x with finished := some (none, m.success) }, .adjacentWins)
    else (x, .ping (info x))

/-- `evaluator` of the other endpoint, lines 256-287. -/
def recvN (x : Node) (m : Msg) : Node × Option Msg :=
  match m with
  | .adjacentWins => ({ x with finished := some (ownResult x, false) }, none)
  | .localWon => ({ x with finished := some (none, true) }, none)
  | .bothFail => ({ x with finished := some (none, false) }, none)
  | _ => (x, some (.ping (info x)))

inductive Op where
  /-- The computation at the preferred endpoint ends with `r`. -/
  | completeP (r : Option Nat)
  | completeN (r : Option Nat)
  /-- The preferred endpoint processes its next message. -/
  | deliverP
  | deliverN
deriving DecidableEq, Repr

def step (s : Sys) : Op → Sys
  | .completeP r =>
    if s.p.ret = none ∧ s.p.finished = none then
      let c := complete s.p r
      { s with p := c.1, toN := s.toN ++ [c.2] }
    else s
  | .completeN r =>
    if s.n.ret = none ∧ s.n.finished = none then
      let c := complete s.n r
      { s with n := c.1, toP := s.toP ++ [c.2] }
    else s
  | .deliverP =>
    match s.toP with
    | [] => s
    | m :: rest =>
      if s.p.finished = none then
        let c := recvP s.p m
        { s with p := c.1, toP := rest, toN := s.toN ++ [c.2] }
      else s
  | .deliverN =>
    match s.toN with
    | [] => s
    | m :: rest =>
      if s.n.finished = none then
        let c := recvN s.n m
        { s with n := c.1, toN := rest, toP := s.toP ++ c.2.toList }
      else s

def after (ops : List Op) : Sys := ops.foldl step init

end Verif.NetSelect

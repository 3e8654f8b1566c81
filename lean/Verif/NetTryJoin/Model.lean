/-
Model of the two-endpoint join `NetTryJoin`.
Source: /repo/netbeam/src/sync/operations/net_try_join.rs lines 95-240 (`State`, `resolve`, `wrap_return`).

Same conventions as `Verif.NetSelect.Model`: two reliable FIFO channels (trusted); `some v` is `Ok(v)`, `none` is `Err`;
`completer` is one atomic step, `evaluator` one atomic step per message; stream errors are left out.
-/
namespace Verif.NetTryJoin

/-- `enum State` as sent over the wire (lines 95-106). -/
inductive Msg where
  | obtained
  | error
  | resolved
  | bothFail
  | ping (info : Option Bool)
deriving DecidableEq, Repr

/-- `implies_success`. -/
def Msg.success : Msg → Bool
  | .obtained => true
  | .ping (some true) => true
  | _ => false

/-- `implies_failure`. -/
def Msg.failure : Msg → Bool
  | .error => true
  | .ping (some false) => true
  | _ => false

inductive Local where
  | pending
  | obtained
  | error
deriving DecidableEq, Repr

/-- One endpoint; `finished` is the returned `NetTryJoinResult.value : Option<Result<T, E>>`. -/
structure Node where
  loc : Local
  ret : Option (Option Nat)
  finished : Option (Option (Option Nat))
deriving DecidableEq, Repr

structure Sys where
  p : Node
  n : Node
  toP : List Msg
  toN : List Msg
deriving DecidableEq, Repr

def fresh : Node := { loc := .pending, ret := none, finished := none }
def init : Sys := { p := fresh, n := fresh, toP := [], toN := [] }

/-- `local_state_info`. -/
def info (x : Node) : Option Bool := x.ret.map Option.isSome

/-- `completer`. -/
def complete (x : Node) (r : Option Nat) : Node × Msg :=
  let m := if r.isSome then (Local.obtained, Msg.obtained) else (Local.error, Msg.error)
  ({ x with loc := m.1, ret := some r }, m.2)

/-- `evaluator` of the preferred endpoint. -/
def recvP (x : Node) (m : Msg) : Node × Msg :=
  if m.failure || decide (x.loc = .error) then ({ x with finished := some x.ret }, .bothFail)
  else if m.success && decide (x.loc = .obtained) then ({ x with finished := some x.ret }, .resolved)
  else (x, .ping (info x))

/-- `evaluator` of the other endpoint. -/
def recvN (x : Node) (m : Msg) : Node × Option Msg :=
  match m with
  | .resolved => ({ x with finished := some x.ret }, none)
  | .bothFail => ({ x with finished := some x.ret }, none)
  | _ => (x, some (.ping (info x)))

inductive Op where
  | completeP (r : Option Nat)
  | completeN (r : Option Nat)
  | deliverP
  | deliverN
deriving DecidableEq, Repr

def step (s : Sys) : Op → Sys
  | .completeP r =>
    if s.p.ret = none ∧ s.p.finished = none then
      let c := complete s.p r
      { s with p := c.1, toN := s.toN ++ [c.2] }
    else s
  | .completeN r =>
    if s.n.ret = none ∧ s.n.finished = none then
      let c := complete s.n r
      { s with n := c.1, toP := s.toP ++ [c.2] }
    else s
  | .deliverP =>
    match s.toP with
    | [] => s
    | m :: rest =>
      if s.p.finished = none then
        let c := recvP s.p m
        { s with p := c.1, toP := rest, toN := s.toN ++ [c.2] }
      else s
  | .deliverN =>
    match s.toN with
    | [] => s
    | m :: rest =>
      if s.n.finished = none then
        let c := recvN s.n m
        { s with n := c.1, toN := rest, toP := s.toP ++ c.2.toList }
      else s

def after (ops : List Op) : Sys := ops.foldl step init

end Verif.NetTryJoin

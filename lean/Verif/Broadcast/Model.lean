/-!
# The kernel for groups of the SDK

`citadel_sdk/src/prefabs/client/broadcast.rs` 126-440: `BroadcastKernel` creates or joins a group, hands the channel of
the group to a function of the user, and, if asked to, accepts registrations.

Simplifications: the preparation (looking up the invited peers) is left out; the feature `localhost-testing`, with which
the acceptor ends after a fixed number of registrations, is off; `responses::peer_register` succeeds or fails as the
environment decides; events are named by what the loops look at. Seconds are numbers, a listing takes no time.
-/
namespace Verif.Broadcast

/-- What the loops of the kernel distinguish among the results of the node. -/
inductive Ev
  /-- `PeerSignal::PostRegister`: `request` if `invitee_response` is `None` -/
  | postRegister (id target : Nat) (request : Bool)
  /-- `GroupChannelCreated` -/
  | channel
  /-- `CreateResponse { key: None }` -/
  | createFailed
  /-- a result that `into_result` turns into an error -/
  | failure
  | other
  deriving DecidableEq, Repr

/-- Where `on_c2s_channel_received` is. -/
inductive Phase
  /-- the request is not sent -/
  | before
  /-- the loop over the subscription, until there is a channel -/
  | waiting
  /-- the function of the user runs (or has returned `Ok`), and the acceptor runs if there is one -/
  | running
  | finished (ok : Bool)
  deriving DecidableEq, Repr

structure St where
  me : Nat
  /-- `creator_only_accept_inbound_registers`, only for an owner -/
  accept : Bool
  /-- `route_registers` -/
  route : Bool := false
  phase : Phase := .before
  /-- the subscription: what has arrived and was not read -/
  sub : List Ev := []
  subEnded : Bool := false
  /-- the queue between `register_tx` and `register_rx` -/
  reg : List Ev := []
  /-- the function of the user has returned `Ok` -/
  fxDone : Bool := false
  /-- ghost: how often the function of the user was called -/
  runs : Nat := 0
  /-- ghost: the requests that were answered -/
  answered : List Nat := []
  /-- ghost: the requests that went to the inner kernel -/
  toInner : List Nat := []
  /-- ghost: the requests to this node that reached the queue or the subscription -/
  arrived : List Nat := []
  deriving DecidableEq, Repr

/-- The requests to a node in a list of events. -/
def requests (me : Nat) : List Ev → List Nat
  | [] => []
  | .postRegister id target true :: r => if target = me then id :: requests me r else requests me r
  | _ :: r => requests me r

inductive Act
  /-- the node hands a result to the kernel -/
  | kernel (e : Ev)
  /-- the request is sent, and the flag set -/
  | start
  | subEvent (e : Ev)
  | subEnd
  /-- a turn of the loop which waits for the channel -/
  | main
  /-- the function of the user returns -/
  | fxReturn (ok : Bool)
  /-- the acceptor takes from the queue -/
  | acceptReg (ok : Bool)
  /-- the acceptor takes from the subscription -/
  | acceptSub (ok : Bool)
  deriving DecidableEq, Repr

/-- `on_node_event_received` (`broadcast.rs` 413-435). -/
def kernelEvent (s : St) (e : Ev) : St :=
  match e with
  | .postRegister id _ _ =>
    if s.route then { s with reg := s.reg ++ [e], arrived := s.arrived ++ requests s.me [e] }
    else { s with toInner := s.toInner ++ [id] }
  | _ => s

/-- One turn of the loop over the subscription (`broadcast.rs` 344-386); its end is `Ok(())`. -/
def mainTurn (s : St) : St :=
  match s.sub with
  | [] => if s.subEnded then { s with phase := .finished true } else s
  | .failure :: r => { s with sub := r, phase := .finished false }
  | .postRegister id t q :: r => { s with sub := r, reg := s.reg ++ [.postRegister id t q] }
  | .channel :: r => { s with sub := r, phase := .running, runs := s.runs + 1 }
  | .createFailed :: r => { s with sub := r, phase := .finished false }
  | .other :: r => { s with sub := r }

/-- What the acceptor does with an event (`broadcast.rs` 296-322). -/
def handle (s : St) (e : Ev) (ok : Bool) : St :=
  match e with
  | .postRegister id target true =>
    if target = s.me then
      if ok then { s with answered := s.answered ++ [id] } else { s with phase := .finished false }
    else s
  | _ => s

/-- One step. `try_join!` (364-365): an error of the function or of the acceptor ends both; the result is `Ok` when both
are. Without registrations to accept the acceptor is done from the start. -/
def step (s : St) : Act → St
  | .kernel e => kernelEvent s e
  | .start => if s.phase = .before then { s with phase := .waiting, route := s.accept } else s
  | .subEvent e =>
    if s.phase ≠ .before ∧ s.subEnded = false then
      { s with sub := s.sub ++ [e], arrived := s.arrived ++ requests s.me [e] }
    else s
  | .subEnd => if s.phase ≠ .before then { s with subEnded := true } else s
  | .main => if s.phase = .waiting then mainTurn s else s
  | .fxReturn ok =>
    if s.phase = .running ∧ s.fxDone = false then
      if ok = false then { s with phase := .finished false }
      else if s.accept then { s with fxDone := true }
      else { s with phase := .finished true, fxDone := true }
    else s
  | .acceptReg ok =>
    if s.phase = .running ∧ s.accept = true then
      match s.reg with
      | [] => s
      | e :: r => handle { s with reg := r } e ok
    else s
  | .acceptSub ok =>
    if s.phase = .running ∧ s.accept = true then
      match s.sub with
      | [] => if s.subEnded then { s with phase := .finished false } else s
      | e :: r => handle { s with sub := r } e ok
    else s

def run (s : St) (as : List Act) : St := as.foldl step s

/-- The kernel at the beginning. -/
def begin (me : Nat) (accept : Bool) : St := { me, accept }

/-- The loop of a client that joins (`broadcast.rs` 241-259): `listing t` is the answer at the time `t`, `none` for an
error. The result is the time at which the loop ends and whether the group was found; `fuel` bounds the turns, five are
enough. -/
def joinLoop (listing : Nat → Option Bool) (retries t : Nat) : (fuel : Nat) → Nat × Bool
  | 0 => (t, false)
  | fuel + 1 =>
    match listing t with
    | none => (t, false)
    | some true => (t, true)
    | some false =>
      if retries + 1 > 4 then (t + 2 ^ retries, false)
      else joinLoop listing (retries + 1) (t + 2 ^ retries) fuel

end Verif.Broadcast

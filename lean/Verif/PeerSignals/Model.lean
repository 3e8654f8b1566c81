import Verif.Mutuals.Model
/-
Model of the server's handling of peer registration, peer deregistration and account deletion requests.
Sources: /repo/citadel_proto/src/proto/packet_processor/peer/peer_cmd_packet.rs lines 1160-1289 (`PostRegister`), 1301-1369
(`Deregister`), 2015-2078 (`route_signal_response`); .../peer/server/post_register.rs lines 52-85;
/repo/citadel_proto/src/proto/session_manager.rs lines 1340-1402 (`route_signal_primary`), 1506-1559
(`route_signal_response_primary`); /repo/citadel_proto/src/proto/peer/peer_layer.rs lines 156-190, 443-565 (tracked postings);
/repo/citadel_proto/src/proto/packet_processor/deregister_packet.rs lines 66-160.

A request arrives on the session of an authenticated client `c` (its packet was opened with the keys of `c`); `h` is the
`session_cid` field of the packet header, which that client filled in. The spawned registration task runs at once.
`HashMap` searches return the first match of the list. Mailboxes, notifications and replies are left out. Tickets and
cids are numbers. The account store is the model `Verif.Mutuals`.
-/
namespace Verif.PeerSignals
open Verif

/-- The `PeerSignal` of a `TrackedPosting`, as far as it is looked at. -/
inductive Signal where
  /-- `PostRegister` without a response, addressed to `to`. -/
  | register (to : Nat)
  /-- `DeregistrationSuccess` with target `to`. -/
  | deregistered (to : Nat)
  /-- Any other posting, e.g. `PostConnect`. -/
  | other
deriving DecidableEq, Repr

/-- Server state: the account store, connected cids, tracked postings keyed by (owner, ticket). -/
structure Server where
  store : Mutuals.Store
  sessions : List Nat
  postings : AMap (Nat × Nat) Signal
deriving DecidableEq, Repr

def init : Server := { store := Mutuals.empty, sessions := [], postings := [] }

/-- What the server did or reported. -/
inductive Event where
  /-- Accounts `a` and `b` were entered as mutual peers. -/
  | registered (a b : Nat)
  /-- Deregistration of `a` and `b` was reported as successful. -/
  | deregistrationReported (a b : Nat)
  /-- Account `v` was deleted. -/
  | deleted (v : Nat)
  | nothing
deriving DecidableEq, Repr

/-- `check_simultaneous_register`, peer_layer.rs lines 443-460: a posting of `peer` that asks for `me`. -/
def simultaneousRegister (s : Server) (me peer : Nat) : Option Nat :=
  (s.postings.find? (fun e => e.1.1 = peer && e.2 = .register me)).map (fun e => e.1.2)

/-- `check_simultaneous_deregister`, peer_layer.rs lines 482-499. -/
def simultaneousDeregister (s : Server) (me peer : Nat) : Bool :=
  s.postings.any (fun e => e.1.1 = peer && e.2 = .deregistered me)

/-- `insert_tracked_posting`, lines 520-541 (nothing is stored for a cid that is not connected). -/
def insertPosting (s : Server) (owner ticket : Nat) (sig : Signal) : Server :=
  if owner ∈ s.sessions then { s with postings := s.postings.insert (owner, ticket) sig } else s

/-- The spawned task of `handle_response_phase_post_register`. -/
def doRegister (s : Server) (a b : Nat) : Server × Event :=
  let r := if s.store.deadlocked then (s.store, .blocked) else Mutuals.register s.store a b
  ({ s with store := r.1 }, if r.2 = .ok then .registered a b else .nothing)

/-- `handle_response_phase_post_register` + `route_signal_response_primary`: `me` answers the posting `ticket` of
`target`. -/
def respond (s : Server) (me target ticket : Nat) (decline : Bool) : Server × Event :=
  if s.postings.contains (target, ticket) then
    let s := { s with postings := s.postings.erase (target, ticket) }
    if target ∈ s.sessions then
      if decline then (s, .nothing) else doRegister s me target
    else (s, .nothing)
  else (s, .nothing)

/-- `PostRegister` without a response: the initiation phase. -/
def request (s : Server) (me target ticket : Nat) : Server × Event :=
  match simultaneousRegister s me target with
  | some t => respond s me target t false
  | none =>
    if me = target then (s, .nothing)  -- refused by route_signal_primary
    else if s.store.accts.contains target then (insertPosting s me ticket (.register target), .nothing)
    else (s, .nothing)

/-- `Deregister { peer_conn_type: LocalGroupPeer { session_cid: a, peer_cid: b } }`. -/
def deregister (s : Server) (a b ticket : Nat) : Server × Event :=
  if simultaneousDeregister s a b then (s, .deregistrationReported a b)
  else
    let r := if s.store.deadlocked then (s.store, .blocked) else Mutuals.deregister s.store a b
    if r.2 = .ok then
      (insertPosting { s with store := r.1 } a ticket (.deregistered b), .deregistrationReported a b)
    else ({ s with store := r.1 }, .nothing)

/-- `deregister_client_from_self`, deregister_packet.rs lines 128-190; `c`'s session ends. -/
def deleteAccount (s : Server) (c h : Nat) : Server × Event :=
  let r := if s.store.deadlocked then (s.store, .blocked) else Mutuals.delete s.store h
  ({ store := r.1, sessions := s.sessions.filter (· ≠ c), postings := s.postings.filter (fun e => e.1.1 ≠ c) },
   if r.2 = .ok then .deleted h else .nothing)

inductive Op where
  /-- An account is created (client registration at the server). -/
  | newAccount (c : Nat)
  /-- Client `c` logs in. -/
  | connect (c : Nat)
  | disconnect (c : Nat)
  /-- `PostRegister` request on the session of `c`, header cid `h`. -/
  | postRegister (c h target ticket : Nat)
  /-- `PostRegister` response on the session of `c`, header cid `h`. -/
  | answerRegister (c h target ticket : Nat) (decline : Bool)
  /-- Some other posting, e.g. a connection request. -/
  | postOther (c h ticket : Nat)
  /-- `Deregister` on the session of `c`; the pair is in the payload. -/
  | deregister (c a b ticket : Nat)
  /-- `DO_DEREGISTER` stage 0 on the session of `c`, header cid `h`. -/
  | deleteAccount (c h : Nat)
  /-- A posting times out. -/
  | expire (owner ticket : Nat)
deriving DecidableEq, Repr

/-- One step. Requests are processed only on an existing session. -/
def step (s : Server) : Op → Server × Event
  | .newAccount c =>
    if s.store.deadlocked then (s, .nothing) else ({ s with store := (Mutuals.create s.store c).1 }, .nothing)
  | .connect c =>
    if s.store.accts.contains c && !(s.sessions.contains c) then ({ s with sessions := c :: s.sessions }, .nothing)
    else (s, .nothing)
  | .disconnect c =>
    ({ s with sessions := s.sessions.filter (· ≠ c), postings := s.postings.filter (fun e => e.1.1 ≠ c) }, .nothing)
  | .postRegister c h target ticket => if c ∈ s.sessions then request s h target ticket else (s, .nothing)
  | .answerRegister c h target ticket decline =>
    if c ∈ s.sessions then respond s h target ticket decline else (s, .nothing)
  | .postOther c h ticket => if c ∈ s.sessions then (insertPosting s h ticket .other, .nothing) else (s, .nothing)
  | .deregister c a b ticket => if c ∈ s.sessions then deregister s a b ticket else (s, .nothing)
  | .deleteAccount c h => if c ∈ s.sessions then deleteAccount s c h else (s, .nothing)
  | .expire owner ticket => ({ s with postings := s.postings.erase (owner, ticket) }, .nothing)

/-- A whole history with its events. -/
def run (s : Server) : List Op → Server × List (Op × Event)
  | [] => (s, [])
  | op :: ops =>
    let r := step s op
    let r' := run r.1 ops
    (r'.1, (op, r.2) :: r'.2)

def after (ops : List Op) : Server := (run init ops).1

end Verif.PeerSignals

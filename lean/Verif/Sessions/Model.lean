import Verif.Common.AssocMap
/-!
The session manager of a server (`citadel_proto/src/proto/session_manager.rs`) with the parts of the sessions' handlers that
use it: which sessions may log in as which account.

A handler runs without interruption up to an `.await`; the rest is a continuation in `pend`. Several handlers of one session
may be suspended at once. Simplifications: the packets of a session and their cryptography are left out (see `Login`): a
SYN is a request for a CID, which turns out to be valid, invalid, or not answerable by the backend; a session that got an
answer to its SYN may log in. Times are in seconds. The handlers of a session end when the session ends (in the code they may
go on for a moment when it is the queue worker that ended it).
-/
namespace Verif.Sessions

abbrev Cid := Nat

/-- `SessionState`; all states before `Connected` are one. -/
inductive St | provisional | connected | disconnecting
  deriving DecidableEq, Repr

inductive Pend
  /-- `preconnect_packet.rs`:101-188, after `can_proceed_with_new_incoming_connection` returned true; with the time of the
  reservation it took, if any -/
  | syn (c : Cid) (since : Option Nat)
  /-- `session_manager.rs`:247-269: waiting for the end of session `on` with the drop listener `tok` -/
  | wait (c : Cid) (on tok : Nat)
  /-- `connect_packet.rs`:173-225, after the upgrade of the connection -/
  | conn (c : Cid)
  deriving DecidableEq, Repr

structure Sess where
  addr : Nat
  /-- `session_cid` -/
  cid : Option Cid := none
  st : St := .provisional
  /-- CID of the ratchet of the session -/
  rcid : Option Cid := none
  /-- `connect_state.last_stage == SUCCESS` -/
  conn : Bool := false
  /-- `drop_listener` -/
  listener : Option Nat := none
  pend : List Pend := []
  /-- the task that reads packets, and with it all handlers, has ended -/
  ended : Bool := false
  /-- it ended with a panic -/
  panicked : Bool := false
  /-- `execute_session_with_safe_shutdown` is through -/
  over : Bool := false
  deriving DecidableEq, Repr

structure Mgr where
  sess : List Sess
  /-- `sessions` -/
  online : AMap Cid Nat
  /-- `provisional_connections` -/
  prov : AMap Nat Nat
  /-- `provisional_cid_reservations` -/
  resv : AMap Cid Nat
  /-- whose handshake the session crypto of an account (`cnac.get_session_crypto()`, shared by all sessions of the account)
  is from -/
  crypto : AMap Cid Nat
  now : Nat
  nextTok : Nat
  deriving DecidableEq, Repr

def Mgr.init : Mgr := ⟨[], [], [], [], [], 0, 0⟩

/-- `PROVISIONAL_CID_RESERVATION_TTL` -/
def ttl : Nat := 30

def Mgr.set (m : Mgr) (sid : Nat) (s : Sess) : Mgr := { m with sess := m.sess.set sid s }

/-- An error or `EndSession`: the handlers end (`session.rs`:933-995). -/
def Sess.halt (s : Sess) : Sess := { s with st := .disconnecting, ended := true, pend := [] }

/-- A panic in a handler: the task of the session ends. -/
def Sess.panic (s : Sess) : Sess := { s with ended := true, panicked := true, pend := [] }

def Sess.suspend (s : Sess) (k : Pend) : Sess := { s with pend := s.pend ++ [k] }

/-- The session found for a CID, 194-199: the online one, or any provisional one (`k` chooses). -/
def Mgr.find (m : Mgr) (c : Cid) (k : Nat) : Option Nat :=
  match m.online.get? c with
  | some i => some i
  | none =>
    let l := m.prov.filter fun e => match m.sess[e.2]? with
      | some s => decide (s.cid.getD 0 = c)
      | none => false
    (l[k % l.length]?).map (·.2)

/-- Reservations that are not too old, 191-192. -/
def Mgr.fresh (m : Mgr) : AMap Cid Nat := m.resv.filter fun e => decide (m.now < e.2 + ttl)

/-- `can_proceed_with_new_incoming_connection(cid, true)`, 185-244, in session `sid`; false ends the session. -/
def Mgr.syn (m : Mgr) (sid : Nat) (s : Sess) (c : Cid) (k : Nat) : Mgr :=
  let m := { m with resv := m.fresh }
  match m.find c k with
  | some i =>
    match m.sess[i]? with
    | none => m
    | some x =>
      if x.st ≠ .disconnecting then m.set sid s.halt
      else if x.listener.isSome then m.set sid s.halt
      else
        { (m.set i { x with listener := some m.nextTok }) with nextTok := m.nextTok + 1 }.set sid
          (s.suspend (.wait c i m.nextTok))
  | none =>
    if (m.resv.get? c).isSome then m.set sid s.halt
    else { m with resv := m.resv.insert c m.now }.set sid (s.suspend (.syn c (some m.now)))

inductive Answer | valid | invalid | error
  deriving DecidableEq, Repr

/-- The rest of the SYN handler, `preconnect_packet.rs`:101-188. The second valid SYN of a session panics (`set_once`) after
the session crypto has been replaced. -/
def Mgr.goOn (m : Mgr) (sid : Nat) (s : Sess) (c : Cid) (r : Answer) : Mgr :=
  match r with
  | .valid =>
    let m := { m with crypto := m.crypto.insert c sid }
    if s.rcid.isSome then m.set sid s.panic
    else { m with resv := m.resv.erase c }.set sid { s with cid := some c, rcid := some c }
  | .invalid => { m with resv := m.resv.erase c }.set sid s.halt
  | .error => m.set sid s.halt

/-- `upgrade_connection`, 953-975, and its use in `connect_packet.rs`:131-168. -/
def Mgr.upgrade (m : Mgr) (sid : Nat) (s : Sess) (c : Cid) : Mgr :=
  match m.prov.get? s.addr with
  | none => m.set sid s.halt
  | some i =>
    { m with prov := m.prov.erase s.addr, online := m.online.insert c i }.set sid
      ({ s with conn := true }.suspend (.conn c))

/-- `clear_session`, 1564-1573 -/
def Mgr.clearSession (m : Mgr) (sid : Nat) (c : Cid) : Mgr :=
  if m.online.get? c = some sid then { m with online := m.online.erase c } else m

/-- `clear_provisional_session`, 1021-1031 -/
def Mgr.clearProv (m : Mgr) (sid addr : Nat) : Mgr :=
  if m.prov.get? addr = some sid then { m with prov := m.prov.erase addr } else m

/-- Provisional sessions of a CID are forgotten, 265. -/
def Mgr.keepProv (m : Mgr) (c : Cid) : AMap Nat Nat :=
  m.prov.filter fun e => match m.sess[e.2]? with
    | some s => decide (s.cid.getD 0 ≠ c)
    | none => true

def Sess.gone (s : Sess) : Sess := { s.halt with over := true, listener := none }

inductive Ev
  /-- `process_new_inbound_connection`, 679-735 -/
  | accept (addr : Nat)
  /-- a SYN arrives -/
  | syn (sid : Nat) (c : Cid) (k : Nat)
  /-- the session that was waited for is gone -/
  | wake (sid i : Nat)
  /-- it was waited for in vain for five seconds, 261-268 -/
  | timeout (sid i : Nat)
  | goOn (sid i : Nat) (r : Answer)
  /-- STAGE0 with accepted credentials -/
  | connect (sid : Nat)
  | connected (sid i : Nat) (ok : Bool)
  /-- disconnect packets (`disconnect_packet.rs`:84, 112), `shutdown` -/
  | disc (sid : Nat)
  /-- the handlers of other stages set the state, `register_packet.rs`:177, `preconnect_packet.rs`:581,
  `deregister_packet.rs`:184 -/
  | reset (sid : Nat)
  /-- a FAILURE of the connect stage from the client, `connect_packet.rs`:252-284 -/
  | failure (sid : Nat)
  /-- a registration fails, `register_packet.rs`:317 -/
  | regFail (sid : Nat)
  /-- the session ends, 537-660; after a panic `execute` does not return the CID (`session.rs`:592) -/
  | finish (sid : Nat) (panic : Bool)
  | tick (n : Nat)
  deriving DecidableEq, Repr

/-- No continuation is woken before the session it waits for has dropped the listener or is itself dropped. A session that
panicked ends as such. Addresses of running sessions are different. -/
def Mgr.Allowed (m : Mgr) : Ev → Prop
  | .accept addr => ∀ s ∈ m.sess, s.over = false → s.addr ≠ addr
  | .wake sid i => ∀ s c on tok, m.sess[sid]? = some s → s.pend[i]? = some (.wait c on tok) →
      ∀ x, m.sess[on]? = some x → x.listener ≠ some tok ∨
        (x.over = true ∧ (∀ e ∈ m.online, e.2 ≠ on) ∧ ∀ e ∈ m.prov, e.2 ≠ on)
  | .finish sid panic => ∀ s, m.sess[sid]? = some s → s.panicked = true → panic = true
  | _ => True

def Mgr.step (m : Mgr) : Ev → Mgr
  | .accept addr => { m with sess := m.sess ++ [{ addr := addr }], prov := m.prov.insert addr m.sess.length }
  | .syn sid c k =>
    match m.sess[sid]? with
    | none => m
    | some s => if s.ended ∨ s.st ≠ .provisional then m else m.syn sid s c k
  | .wake sid i =>
    match m.sess[sid]? with
    | none => m
    | some s =>
      match s.pend[i]? with
      | some (.wait c _ _) => m.set sid { s with pend := s.pend.eraseIdx i ++ [Pend.syn c none] }
      | _ => m
  | .timeout sid i =>
    match m.sess[sid]? with
    | none => m
    | some s =>
      match s.pend[i]? with
      | some (.wait c _ _) =>
        { m with online := m.online.erase c, prov := m.keepProv c, resv := m.resv.erase c }.set sid
          { s with pend := s.pend.eraseIdx i ++ [Pend.syn c none] }
      | _ => m
  | .goOn sid i r =>
    match m.sess[sid]? with
    | none => m
    | some s =>
      match s.pend[i]? with
      | some (.syn c _) => m.goOn sid { s with pend := s.pend.eraseIdx i } c r
      | _ => m
  | .connect sid =>
    match m.sess[sid]? with
    | none => m
    | some s =>
      match s.rcid with
      | none => m
      | some c => if s.ended ∨ s.st ≠ .provisional ∨ s.conn then m else m.upgrade sid s c
  | .connected sid i ok =>
    match m.sess[sid]? with
    | none => m
    | some s =>
      match s.pend[i]? with
      | some (.conn c) =>
        if ok then m.set sid { s with pend := s.pend.eraseIdx i, cid := some c, st := .connected } else m.set sid s.halt
      | _ => m
  | .disc sid =>
    match m.sess[sid]? with
    | none => m
    | some s => if s.over then m else m.set sid { s with st := .disconnecting }
  | .reset sid =>
    match m.sess[sid]? with
    | none => m
    | some s => if s.ended then m else m.set sid { s with st := .provisional }
  | .failure sid =>
    match m.sess[sid]? with
    | none => m
    | some s => if s.ended ∨ s.rcid = none then m else m.set sid { s.halt with cid := none }
  | .regFail sid =>
    match m.sess[sid]? with
    | none => m
    | some s => if s.ended then m else m.clearProv sid s.addr
  | .finish sid panic =>
    match m.sess[sid]? with
    | none => m
    | some s =>
      if s.over then m else
      let m := match s.cid, panic with
        | some c, false => m.clearSession sid c
        | _, _ => m
      (m.clearProv sid s.addr).set sid s.gone
  | .tick n => { m with now := m.now + n }

inductive Run : List Ev → Mgr → Prop
  | init : Run [] Mgr.init
  | step {evs m ev} : Run evs m → m.Allowed ev → Run (evs ++ [ev]) (m.step ev)

def Mgr.steps : Mgr → List Ev → Mgr
  | m, [] => m
  | m, ev :: evs => (m.step ev).steps evs

end Verif.Sessions

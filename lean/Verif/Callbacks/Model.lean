/-!
# Callback subscriptions of the kernel and the calls of the SDK

* `citadel_proto/src/kernel/kernel_communicator.rs` - the map of the listeners, the search for the
  listener of a result, the drop of a subscription;
* `citadel_proto/src/proto/remote.rs` 160-211 - the key of a subscription, the failure to send;
* `citadel_proto/src/proto/node_request.rs` 131-153 and `proto/node_result.rs` 250-381 - the
  session of a request, the key of a result, the results that count as errors;
* `citadel_proto/src/proto/node.rs` 405-655 - how the node reports a failure of a request;
* `citadel_sdk/src/remote_ext.rs` - what each call does with the results of its subscription;
* `citadel_proto/src/kernel/kernel_executor.rs` 160-225 - the loop that hands results over.

Simplifications:
* a result keeps its variant, its ticket, its cid and the part of its content on which a call of
  the SDK decides; everything else of its content is `tag`;
* `HashMap::iter_mut` has no fixed order, so a search that several listeners match takes the one
  that an arbitrary number in the action selects;
* the map is behind a mutex, so each operation is one action; a channel of `tokio` is the list of
  everything sent into it (`log`) with the prefix already taken out (`seen`).
-/
namespace Verif.Callbacks

/-- kernel_communicator.rs `CallbackKey`. -/
structure Key where
  ticket : Nat
  cid : Option Nat
deriving DecidableEq, Repr

/-- The answers in a `PeerSignal` that a call looks at. -/
inductive Answer where
  | accept
  | decline
  | timeout
  | other
deriving DecidableEq, Repr

/-- `PeerSignal`, as far as the calls tell its variants apart. -/
inductive Signal where
  | error
  | registeredPeers (cids : Bool)
  | mutuals (cids : Bool)
  | postConnect (answer : Option Answer)
  | postRegister (answer : Option Answer)
  | deregistered
  | disconnect (answered : Bool)
  | received
  | other
deriving DecidableEq, Repr

/-- `GroupBroadcast`, as far as the calls tell its variants apart. -/
inductive GroupSignal where
  | list
  | createRefused
  | other
deriving DecidableEq, Repr

/-- node_result.rs 211-247. -/
inductive NodeResult where
  | registerOkay (t cid : Nat)
  | registerFailure (t : Nat)
  | deregistration (t : Option Nat) (cid : Nat) (success : Bool)
  | connectSuccess (t cid : Nat)
  | connectFail (t : Nat) (cid : Option Nat)
  | rekeyResult (t cid : Nat) (success : Bool)
  | revfs (t cid : Nat) (failed : Bool)
  | rejected (t : Nat)
  | objectHandle (t cid tag : Nat)
  | mailbox (t : Option Nat) (cid : Nat)
  | peerEvent (t cid : Nat) (e : Signal) (tag : Nat)
  | groupCreated (t cid : Nat)
  | groupEvent (t cid : Nat) (e : GroupSignal) (tag : Nat)
  | disconnect (t : Nat) (cid : Option Nat) (success : Bool)
  | internalError (t cid : Option Nat)
  | peerChannel (t cid : Nat)
  | sessionList (t : Nat)
  | shutdown
deriving DecidableEq, Repr

/-- node_result.rs 289-381. -/
def NodeResult.key : NodeResult → Option Key
  | .registerOkay t c => some ⟨t, some c⟩
  | .registerFailure t => some ⟨t, none⟩
  | .deregistration t c _ => t.map (⟨·, some c⟩)
  | .connectSuccess t c => some ⟨t, some c⟩
  | .connectFail t c => some ⟨t, c⟩
  | .rekeyResult t c _ => some ⟨t, some c⟩
  | .revfs t c _ => some ⟨t, some c⟩
  | .rejected t => some ⟨t, none⟩
  | .objectHandle t c _ => some ⟨t, some c⟩
  | .mailbox t c => t.map (⟨·, some c⟩)
  | .peerEvent t c _ _ => some ⟨t, some c⟩
  | .groupCreated t c => some ⟨t, some c⟩
  | .groupEvent t c _ _ => some ⟨t, some c⟩
  | .disconnect t c _ => some ⟨t, c⟩
  | .internalError t c => t.map (⟨·, c⟩)
  | .peerChannel t c => some ⟨t, some c⟩
  | .sessionList t => some ⟨t, none⟩
  | .shutdown => none

/-- node_result.rs 250-283: `into_result` turns these into an error. -/
def NodeResult.isErr : NodeResult → Bool
  | .connectFail _ _ => true
  | .registerFailure _ => true
  | .rejected _ => true
  | .internalError _ _ => true
  | .peerEvent _ _ .error _ => true
  | _ => false

/-- auth.rs: who asks for the connection. -/
inductive Auth where
  | byCid (cid : Nat)
  | byUsername (name : Nat)
  | transient (uuid : Nat)
deriving DecidableEq, Repr

/-- auth.rs 85-96. -/
def Auth.cid : Auth → Option Nat
  | .byCid c => some c
  | .byUsername _ => none
  | .transient _ => none

/-- node_request.rs 104-129. -/
inductive Request where
  | register
  | connect (auth : Auth)
  | peerCommand (cid : Nat)
  | deregister (cid : Nat)
  | disconnect (cid : Nat)
  | rekey (cid : Nat)
  | sendObject (cid : Nat)
  | pullObject (cid : Nat)
  | deleteObject (cid : Nat)
  | group (cid : Nat)
  | activeSessions
  | shutdown
deriving DecidableEq, Repr

/-- node_request.rs 132-153. -/
def Request.cid : Request → Option Nat
  | .register => none
  | .connect a => a.cid
  | .peerCommand c => some c
  | .deregister c => some c
  | .disconnect c => some c
  | .rekey c => some c
  | .sendObject c => some c
  | .pullObject c => some c
  | .deleteObject c => some c
  | .group c => some c
  | .activeSessions => none
  | .shutdown => none

/-- remote.rs 186-189: the key under which the answers to a request are awaited. -/
def Request.key (r : Request) (ticket : Nat) : Key := ⟨ticket, r.cid⟩

/-- node.rs 405-424 `send_error`. -/
def sendError (ticket : Nat) : NodeResult := .internalError (some ticket) none

/-- node.rs 426-655: what the loop of the node itself reports for a request, when the session
manager answers `fails`; `none` if the loop reports nothing (the answer comes later). -/
def nodeReport (r : Request) (ticket : Nat) (fails : Bool) : Option NodeResult :=
  if r.cid = some 0 then some (sendError ticket)
  else match r with
    | .activeSessions => some (.sessionList ticket)
    | .shutdown => none
    | _ => if fails then some (sendError ticket) else none

/-! ## The map of the listeners -/

/-- kernel_communicator.rs 62-109: does a listener under `k` take a result with the key `received`? -/
def takes (k received : Key) : Bool :=
  match k.cid with
  | some expected =>
      match received.cid with
      | some c => received.ticket == k.ticket && expected == c
      | none => false
  | none => received.ticket == k.ticket

structure St where
  /-- `KernelAsyncCallbackHandlerInner::map`: the key of a listener, and its channel. -/
  map : List (Key × Nat)
  /-- the number of channels made so far -/
  next : Nat
  /-- everything sent into a channel -/
  log : Nat → List NodeResult
  /-- what the receiver has taken out of it -/
  seen : Nat → List NodeResult
  /-- the receiver exists -/
  rx : Nat → Bool
  /-- the key in the `KernelStreamSubscription` of a channel, if there is one -/
  sub : Nat → Option Key
  /-- results given to the handler of the kernel, `on_node_event_received` -/
  deflt : List NodeResult

def St.init : St :=
  { map := [], next := 0, log := fun _ => [], seen := fun _ => [], rx := fun _ => false,
    sub := fun _ => none, deflt := [] }

def upd {α : Type} (f : Nat → α) (i : Nat) (v : α) : Nat → α := fun j => if j = i then v else f j

/-- `HashMap::remove`. -/
def eraseKey (m : List (Key × Nat)) (k : Key) : List (Key × Nat) := m.filter (fun e => e.1 != k)

/-- kernel_communicator.rs 128-146 and 188-200. `HashMap::insert` replaces the listener before the
error is returned; the receiver of the failed registration is dropped with it. -/
def register (s : St) (k : Key) : St :=
  let present := s.map.any (fun e => e.1 == k)
  { s with
    map := (k, s.next) :: eraseKey s.map k
    next := s.next + 1
    rx := upd s.rx s.next (!present)
    sub := upd s.sub s.next (if present then none else some k) }

/-- kernel_communicator.rs 149-153. -/
def removeListener (s : St) (k : Key) : St := { s with map := eraseKey s.map k }

/-- kernel_communicator.rs 223-227; then the receiver is dropped. -/
def dropSub (s : St) (i : Nat) : St :=
  match s.sub i with
  | none => s
  | some k => { removeListener s k with rx := upd s.rx i false, sub := upd s.sub i none }

/-- kernel_communicator.rs 62-109: `choice` stands for the order of the map. -/
def search (m : List (Key × Nat)) (received : Key) (choice : Nat) : Option Nat :=
  let found := m.filter (fun e => takes e.1 received)
  (found[choice % found.length]?).map (·.2)

/-- kernel_communicator.rs 156-185: into the channel of the listener, or to the kernel. -/
def deliver (s : St) (r : NodeResult) (choice : Nat) : St :=
  match r.key with
  | none => { s with deflt := s.deflt ++ [r] }
  | some k =>
      match search s.map k choice with
      | none => { s with deflt := s.deflt ++ [r] }
      | some i =>
          if s.rx i then { s with log := upd s.log i (s.log i ++ [r]) }
          else { s with deflt := s.deflt ++ [r] }

/-- kernel_communicator.rs 229-238: the next result of the stream. -/
def poll (s : St) (i : Nat) : St :=
  match (s.log i)[(s.seen i).length]? with
  | some r => { s with seen := upd s.seen i (s.seen i ++ [r]) }
  | none => s

inductive Act where
  /-- `register_stream` -/
  | subscribe (k : Key)
  /-- the subscription with this number goes away -/
  | drop (i : Nat)
  /-- remote.rs 197: the request could not be sent -/
  | unlisten (k : Key)
  /-- a result arrives at the executor -/
  | result (r : NodeResult) (choice : Nat)
  | poll (i : Nat)
deriving DecidableEq, Repr

def step (s : St) : Act → St
  | .subscribe k => register s k
  | .drop i => dropSub s i
  | .unlisten k => removeListener s k
  | .result r c => deliver s r c
  | .poll i => poll s i

def runFrom (s : St) (as : List Act) : St := as.foldl step s
def run (as : List Act) : St := runFrom St.init as

/-- remote.rs 181-201, as one caller: subscribe, send; `sent` is whether the send succeeded. -/
def sendSubscribed (s : St) (r : Request) (ticket : Nat) (sent : Bool) : St :=
  let k := r.key ticket
  let s1 := register s k
  if sent || !(s1.rx s.next) then s1 else dropSub (removeListener s1 k) s.next

/-! ## The calls of the SDK -/

inductive Call where
  | register
  | connect (auth : Auth)
  | localGroupPeers (cid : Nat)
  | mutualPeers (cid : Nat)
  | sessions
  | listSessions
  | sendFile (cid : Nat)
  | revfsPull (cid : Nat)
  | revfsDelete (cid : Nat)
  | connectPeer (cid : Nat)
  | registerPeer (cid : Nat)
  | deregisterPeer (cid : Nat)
  | deregister (cid : Nat)
  | disconnectPeer (cid : Nat)
  | disconnect (cid : Nat)
  | createGroup (cid : Nat)
  | listGroups (cid : Nat)
  | rekey (cid : Nat)
deriving DecidableEq, Repr

def Call.request : Call → Request
  | .register => .register
  | .connect a => .connect a
  | .localGroupPeers c => .peerCommand c
  | .mutualPeers c => .peerCommand c
  | .sessions => .activeSessions
  | .listSessions => .activeSessions
  | .sendFile c => .sendObject c
  | .revfsPull c => .pullObject c
  | .revfsDelete c => .deleteObject c
  | .connectPeer c => .peerCommand c
  | .registerPeer c => .peerCommand c
  | .deregisterPeer c => .peerCommand c
  | .deregister c => .deregister c
  | .disconnectPeer c => .peerCommand c
  | .disconnect c => .disconnect c
  | .createGroup c => .group c
  | .listGroups c => .group c
  | .rekey c => .rekey c

inductive Verdict where
  | wait
  | ok
  | err
deriving DecidableEq, Repr

/-- remote_ext.rs: the body of the loop of a call for one result, after `into_result`. -/
def Call.body : Call → NodeResult → Verdict
  -- 252-273
  | .register, .registerOkay _ _ => .ok
  | .register, .disconnect _ _ _ => .err
  | .register, _ => .wait
  -- 327-377: no loop, the first result decides
  | .connect _, .connectSuccess _ _ => .ok
  | .connect _, _ => .err
  -- 500-524
  | .localGroupPeers _, .peerEvent _ _ (.registeredPeers true) _ => .ok
  | .localGroupPeers _, _ => .wait
  -- 551-574
  | .mutualPeers _, .peerEvent _ _ (.mutuals true) _ => .ok
  | .mutualPeers _, _ => .wait
  -- 590-597
  | .sessions, .sessionList _ => .ok
  | .sessions, _ => .wait
  -- 1235-1241: no loop
  | .listSessions, .sessionList _ => .ok
  | .listSessions, _ => .err
  -- 674-694: the transfer itself goes on with the handle
  | .sendFile _, .objectHandle _ _ _ => .ok
  | .sendFile _, _ => .wait
  -- 771-795
  | .revfsPull _, .objectHandle _ _ _ => .ok
  | .revfsPull _, .peerEvent _ _ .received _ => .wait
  | .revfsPull _, _ => .err
  -- 816-833
  | .revfsDelete _, .revfs _ _ failed => if failed then .err else .ok
  | .revfsDelete _, _ => .wait
  -- 875-920
  | .connectPeer _, .peerChannel _ _ => .ok
  | .connectPeer _, .peerEvent _ _ (.postConnect (some .timeout)) _ => .err
  | .connectPeer _, .peerEvent _ _ (.postConnect (some .decline)) _ => .err
  | .connectPeer _, _ => .wait
  -- 969-990: a refusal and a timeout are values of `PeerRegisterStatus`
  | .registerPeer _, .peerEvent _ _ (.postRegister (some .accept)) _ => .ok
  | .registerPeer _, .peerEvent _ _ (.postRegister (some .decline)) _ => .ok
  | .registerPeer _, .peerEvent _ _ (.postRegister (some .timeout)) _ => .ok
  | .registerPeer _, _ => .wait
  -- 1013-1022
  | .deregisterPeer _, .peerEvent _ _ .deregistered _ => .ok
  | .deregisterPeer _, _ => .wait
  -- 1031-1050
  | .deregister _, .deregistration _ _ success => if success then .ok else .err
  | .deregister _, _ => .wait
  -- 1076-1090
  | .disconnectPeer _, .peerEvent _ _ (.disconnect true) _ => .ok
  | .disconnectPeer _, _ => .wait
  -- 1107-1121
  | .disconnect _, .disconnect _ _ success => if success then .ok else .err
  | .disconnect _, _ => .wait
  -- 1179-1188
  | .createGroup _, .groupCreated _ _ => .ok
  | .createGroup _, _ => .wait
  -- 1212-1221
  | .listGroups _, .groupEvent _ _ .list _ => .ok
  | .listGroups _, _ => .wait
  -- 1253-1264
  | .rekey _, .rekeyResult _ _ success => if success then .ok else .err
  | .rekey _, _ => .wait

/-- remote_ext.rs: does the call pass its results through `into_result`? `create_group_with_options`
(1179-1188), `rekey` (1253-1264) and `list_sessions` (1235) do not. -/
def Call.checksErrors : Call → Bool
  | .createGroup _ => false
  | .rekey _ => false
  | .listSessions => false
  | _ => true

def Call.onResult (c : Call) (r : NodeResult) : Verdict :=
  if c.checksErrors && r.isErr then .err else c.body r

/-- remote_ext.rs 853: the only call with a limit of time (60 s). -/
def Call.timed : Call → Bool
  | .connectPeer _ => true
  | _ => false

/-- What the call has come to after these results. -/
def Call.drive (c : Call) : List NodeResult → Verdict
  | [] => .wait
  | r :: rs => match c.onResult r with
      | .wait => c.drive rs
      | v => v

/-! ## The executor -/

/-- What the handler of the kernel does with a result that no listener takes. -/
inductive Job where
  /-- returns at once -/
  | quick
  /-- makes a call of the SDK under this ticket, and returns when it has come to an end -/
  | call (c : Call) (ticket : Nat)
deriving DecidableEq, Repr

structure Exec where
  /-- `server_to_kernel_rx` -/
  queue : List NodeResult
  /-- handlers in progress: the call and the number of its subscription -/
  running : List (Call × Nat)
  st : St

/-- `try_for_each_concurrent`: a limit of zero is no limit. -/
def room (limit : Option Nat) (n : Nat) : Bool :=
  match limit with
  | none => true
  | some l => l == 0 || decide (n < l)

inductive EAct where
  /-- the node produces a result -/
  | push (r : NodeResult)
  /-- the executor takes the next result; what the handler of the kernel does with it -/
  | take (job : Job) (choice : Nat)
  /-- a handler is polled -/
  | resume (i : Nat)
deriving DecidableEq, Repr

/-- kernel_executor.rs 186-216. -/
def estep (limit : Option Nat) (e : Exec) : EAct → Exec
  | .push r => { e with queue := e.queue ++ [r] }
  | .take job choice =>
      match e.queue with
      | [] => e
      | r :: q =>
          if room limit e.running.length then
            let s1 := deliver e.st r choice
            if s1.deflt.length = e.st.deflt.length then { e with queue := q, st := s1 }
            else match job with
              | .quick => { e with queue := q, st := s1 }
              | .call c t =>
                  { queue := q
                    running := e.running ++ [(c, s1.next)]
                    st := register s1 (c.request.key t) }
          else e
  | .resume i =>
      match e.running[i]? with
      | none => e
      | some (c, n) =>
          let s1 := poll e.st n
          if c.drive (s1.seen n) = .wait then { e with st := s1 }
          else { e with running := e.running.eraseIdx i, st := dropSub s1 n }

def erun (limit : Option Nat) (e : Exec) (as : List EAct) : Exec := as.foldl (estep limit) e

end Verif.Callbacks

/-
Model of the re-key protocol between the two endpoints of a session.
Sources: /repo/citadel_crypt/src/ratchets/ratchet_manager.rs
           `trigger_rekey_with_payload` lines 302-675, `spawn_rekey_process` lines 677-790,
           `rekey` lines 792-1545, `get_rekey_metadata` lines 1600-1608;
         /repo/citadel_crypt/src/endpoint_crypto_container.rs
           `get_ratchet` 127-141, `commit_next_ratchet_version` 150-236, `update_sync_safe` 243-295,
           `post_alice_stage1_or_post_stage1_bob` 311-328, `get_next_constructor` 343-349,
           `declare_next_version`/`sync_declared_version` 407-420;
         /repo/citadel_crypt/src/toolset.rs `update_from`, `deregister_oldest_ratchet` (see `Verif.Toolset`).

Each endpoint runs two tasks that share the state of the endpoint:
* the *trigger* task: one call of `trigger_rekey_with_payload` after the other (the semaphore of line 318 admits one
  call at a time);
* the *background* task: `spawn_rekey_process`, which calls `rekey` in a loop and handles the messages of the peer.

The state of either task is a program counter with the local variables that are still needed.  One micro-step makes
one access to the shared state (one atomic, one lock region, one channel operation).  Two schedulers are given:
* `fineStep`: any task of either endpoint makes its next micro-step (a multi-threaded executor);
* `coopStep`: a task runs up to its next `.await` (a single-threaded executor per endpoint); the closures handed to
  `spawn_blocking` still run beside the executor.

Simplifications:
* versions are natural numbers (the code's `u32` would wrap after 2^32 re-keys);
* a ratchet is the pair of the contribution of the endpoint that proposed it (`AliceToBob`) and of the endpoint that
  answered (`BobToAlice`); contributions are arbitrary numbers chosen by the schedule.  `stage1_alice` of an answer to
  another proposal is an error;
* transport is two reliable ordered channels; (de)serialisation, sending and key generation do not fail;
* no timeouts: the 60 s message timeout, the 60 s staleness of a declared version and the 5 s wait of
  `wait_for_completion` do not fire.  A call that would wait for the running re-key returns instead (it would only
  keep the semaphore longer, and then return);
* attached payloads, notifications and shutdown are left out (see `Verif.Messenger`);
* memory accesses are sequentially consistent.
-/
namespace Verif.Rekey

/-- `RekeyRole`. -/
inductive Role where
  | idle
  | leader
  | loser
deriving DecidableEq, Repr

/-- A ratchet: what the proposer and what the answerer contributed. -/
structure Key where
  alice : Nat
  bob : Nat
deriving DecidableEq, Repr

/-- `RatchetMessage`.  The `earliest_ratchet_version` of `AliceToBob` is only logged by the receiver; the
`RekeyMetadata` is its `current_version` (`next_version` is one more). -/
inductive Msg where
  | aliceToBob (a latest cur : Nat)
  | bobToAlice (a b cur : Nat)
  | truncate (v : Nat)
  | loserCanFinish
  | leaderCanFinish (v : Nat)
deriving DecidableEq, Repr

/-- Program counter of the background task with its live locals. -/
inductive BPc where
  /-- lines 801-805: a new round captures its metadata. -/
  | roundStart
  /-- lines 827-853: waiting for a message. -/
  | recv
  /-- lines 876-954: `AliceToBob`, the version barrier. -/
  | a2bBarrier (a lat cur : Nat)
  /-- the clean-up of a stale message (lines 926-942, 1001-1016, 1107-1119). -/
  | stale (next : Nat)
  /-- lines 960-1028: role and metadata checks. -/
  | a2bValidate (a cur : Nat)
  /-- `update_sync_safe(.., false)`: the toggle. -/
  | bToggle (a : Nat)
  /-- lines 1086-1091. -/
  | bContended
  /-- `commit_next_ratchet_version(.., true)`. -/
  | bCommit (a : Nat)
  /-- lines 1059-1062. -/
  | bToggle2 (a b : Nat)
  /-- line 1063. -/
  | bRole (a b : Nat)
  /-- lines 1067-1077: waiting to send `BobToAlice`. -/
  | bSend (a b : Nat)
  /-- lines 1100-1128: `BobToAlice`, metadata. -/
  | b2aMeta (a b cur : Nat)
  /-- lines 1130-1190: role transition. -/
  | b2aRole (a b cur : Nat)
  /-- lines 1192-1209: is there a constructor? -/
  | b2aHas (a b cur : Nat)
  /-- lines 1211-1219: take it, `stage1_alice`. -/
  | b2aTake (a b cur : Nat)
  /-- `update_sync_safe(.., true)`: the toggle. -/
  | aToggle (a b : Nat)
  /-- `commit_next_ratchet_version(.., false)`. -/
  | aCommit (a b : Nat)
  /-- lines 1253-1257. -/
  | aDereg (v : Nat)
  /-- lines 1259-1268: waiting to send `Truncate`. -/
  | aSendTrunc (v : Nat)
  /-- lines 1271-1281: waiting to send `LoserCanFinish`. -/
  | aSendLoser
  /-- `Truncate` (lines 1295-1320) or `LoserCanFinish` (lines 1363-1375): role check and deregistration. -/
  | lRole (trunc : Option Nat)
  /-- `post_alice_stage1_or_post_stage1_bob`. -/
  | lBump
  /-- `sync_declared_version`. -/
  | lSync
  /-- lines 1339-1345, 1409-1415. -/
  | lRemove
  /-- lines 1347-1357, 1418-1428: waiting to send `LeaderCanFinish`. -/
  | lSend
  /-- `LeaderCanFinish`, lines 1432-1471. -/
  | fRole (v : Nat)
  | fBump (v : Nat)
  | fSync (v : Nat)
  /-- lines 1514-1529. -/
  | retain
  /-- line 1532. -/
  | roleIdle
  /-- line 1539. -/
  | toggleOff
  /-- line 709 (`set_role`) of the loop of `spawn_rekey_process`. -/
  | roundEnd
  /-- an error return of `rekey`: the `ToggleGuard`, then lines 709 and 733. -/
  | errToggle
  | errRole
  | errSync
deriving DecidableEq, Repr

/-- Locals of `trigger_rekey_with_payload`: `version_at_entry`, the current version of `metadata`, the constructor,
`latest_ratchet_version` and `stale_version_retry_count`. -/
structure TLoc where
  vE : Nat
  tm : Nat
  c : Nat
  sn : Nat
  r : Nat
deriving DecidableEq, Repr

/-- Program counter of the trigger task. -/
inductive TPc where
  | idle
  /-- line 336: is a re-key pending? -/
  | declared (l : TLoc)
  /-- lines 376-391: is a re-key in progress? -/
  | role (l : TLoc)
  /-- lines 451-463: top of the retry loop. -/
  | top (l : TLoc)
  /-- lines 467-479. -/
  | version (l : TLoc)
  /-- line 481: `get_next_constructor`. -/
  | next (l : TLoc)
  /-- line 487. -/
  | snap (l : TLoc)
  /-- lines 504-536: waiting for `stage0_alice`, then `declare_next_version`. -/
  | declare (l : TLoc)
  /-- lines 548-553. -/
  | store (l : TLoc)
  /-- lines 563-566. -/
  | toggle (l : TLoc)
  /-- lines 574-575. -/
  | check (l : TLoc)
  /-- lines 579, 581, 583. -/
  | rSync (l : TLoc)
  | rRemove (l : TLoc)
  | rOff (l : TLoc)
  /-- lines 587-590. -/
  | sleep (l : TLoc)
  /-- lines 593-606: waiting to send `AliceToBob`. -/
  | send (l : TLoc)
deriving DecidableEq, Repr

/-- One endpoint: `PeerSessionCrypto` (usable version, declared version, toggle, toolset window and contents), the
role, the constructors by target version, and the two tasks. -/
structure EP where
  latest : Nat
  declared : Nat
  tog : Bool
  role : Role
  oldest : Nat
  most : Nat
  cons : Nat → Option Nat
  keys : Nat → Option Key
  b : BPc
  /-- the `metadata` captured at the start of the round -/
  rmeta : Nat
  /-- `stale_message_count` -/
  skipped : Nat
  t : TPc

/-- Insert or replace in a map. -/
def put {α : Type} (f : Nat → Option α) (k : Nat) (v : α) : Nat → Option α :=
  fun j => if j = k then some v else f j

/-- Remove from a map. -/
def del {α : Type} (f : Nat → Option α) (k : Nat) : Nat → Option α :=
  fun j => if j = k then none else f j

/-- `MAX_STALE_MESSAGES`, line 811. -/
def maxStale : Nat := 20

/-- `MAX_STALE_VERSION_RETRIES`, line 446. -/
def maxRetries : Nat := 5

/-- Skip a message that counts as stale: back to waiting, or an error at the limit. -/
def skip (x : EP) : EP :=
  if x.skipped + 1 ≥ maxStale then { x with skipped := x.skipped + 1, b := .errToggle }
  else { x with skipped := x.skipped + 1, b := .recv }

/-- Does `get_ratchet(None)` find a ratchet? -/
def hasLatest (x : EP) : Bool := (x.keys x.latest).isSome || (x.keys (x.latest - 1)).isSome

/-- The version of the ratchet `get_ratchet(None)` returns. -/
def currentVersion (x : EP) : Nat := if (x.keys x.latest).isSome then x.latest else x.latest - 1

/-- `Toolset::update_from` with the next version. -/
def commit (x : EP) (k : Key) : EP :=
  { x with most := x.most + 1, keys := put x.keys (x.most + 1) k }

/-- `Toolset::deregister_oldest_ratchet`. -/
def dereg (maxR : Nat) (x : EP) (v : Nat) : Option EP :=
  if x.most - x.oldest + 1 < maxR then none
  else if x.oldest ≠ v then none
  else some { x with keys := del x.keys x.oldest, oldest := x.oldest + 1 }

/-- The micro-steps of the background task that neither receive, nor send, nor generate keys. -/
def bLocal (maxR : Nat) (init : Bool) (x : EP) : EP :=
  match x.b with
  | .roundStart => { x with rmeta := x.latest, skipped := 0, b := .recv }
  | .a2bBarrier a lat cur =>
    if hasLatest x = false then { x with b := .errToggle }
    else if lat < x.latest then { x with b := .stale (cur + 1) }
    else if x.latest < lat then { x with b := .errToggle }
    else { x with b := .a2bValidate a cur }
  | .stale next => skip { x with cons := del x.cons next }
  | .a2bValidate a cur =>
    if x.role = .leader ∧ x.cons (cur + 1) = none then skip x
    else if cur < x.rmeta then { x with b := .stale (cur + 1) }
    else if x.rmeta < cur then { x with b := .errToggle }
    else { x with b := .bToggle a }
  | .bToggle a =>
    if x.tog = true ∧ init = false then { x with b := .bContended }
    else { x with tog := true, b := .bCommit a }
  | .bContended => { x with role := .leader, b := .recv }
  | .bToggle2 a b => { x with tog := true, b := .bRole a b }
  | .bRole a b => { x with role := .loser, b := .bSend a b }
  | .b2aMeta a b cur =>
    if cur < x.latest then { x with b := .stale (cur + 1) }
    else if x.latest < cur then { x with b := .errToggle }
    else { x with b := .b2aRole a b cur }
  | .b2aRole a b cur =>
    if x.role = .loser ∧ init = false then skip x
    else { x with role := .leader, b := .b2aHas a b cur }
  | .b2aHas a b cur =>
    if x.cons (cur + 1) = none then skip x else { x with b := .b2aTake a b cur }
  | .b2aTake a b cur =>
    if x.cons (cur + 1) = some a then { x with cons := del x.cons (cur + 1), b := .aToggle a b }
    else { x with cons := del x.cons (cur + 1), b := .errToggle }
  | .aToggle a b => { x with tog := true, b := .aCommit a b }
  | .aCommit a b =>
    if (x.most + 1) - x.oldest + 1 ≥ maxR then { commit x ⟨a, b⟩ with b := .aDereg x.oldest }
    else { commit x ⟨a, b⟩ with b := .aSendLoser }
  | .aDereg v =>
    match dereg maxR x v with
    | some x' => { x' with b := .aSendTrunc v }
    | none => { x with b := .errToggle }
  | .lRole trunc =>
    if x.role ≠ .loser then { x with b := .errToggle }
    else match trunc with
      | none => { x with b := .lBump }
      | some v =>
        match dereg maxR x v with
        | some x' => { x' with b := .lBump }
        | none => { x with b := .errToggle }
  | .lBump =>
    if (x.keys (x.latest + 1)).isSome then { x with latest := x.latest + 1, b := .lSync }
    else { x with b := .lSync }
  | .lSync => { x with declared := x.latest, b := .lRemove }
  | .lRemove => { x with cons := del x.cons (x.latest + 1), b := .lSend }
  | .fRole v =>
    if x.role = .loser then { x with b := .errToggle } else { x with role := .leader, b := .fBump v }
  | .fBump v =>
    if (x.keys (x.latest + 1)).isSome then { x with latest := x.latest + 1, b := .fSync v }
    else { x with b := .fSync v }
  | .fSync v =>
    if x.latest ≠ v then { x with declared := x.latest, b := .errToggle }
    else { x with declared := x.latest, b := .retain }
  | .retain =>
    { x with cons := fun j => if currentVersion x < j then x.cons j else none, b := .roleIdle }
  | .roleIdle => { x with role := .idle, b := .toggleOff }
  | .toggleOff => { x with tog := false, b := .roundEnd }
  | .roundEnd => { x with role := .idle, b := .roundStart }
  | .errToggle => { x with tog := false, b := .errRole }
  | .errRole => { x with role := .idle, b := .errSync }
  | .errSync => { x with declared := x.latest, b := .roundStart }
  | .recv => x
  | .bCommit _ => x
  | .bSend _ _ => x
  | .aSendTrunc _ => x
  | .aSendLoser => x
  | .lSend => x

/-- Where the handling of a received message starts. -/
def dispatch : Msg → BPc
  | .aliceToBob a lat cur => .a2bBarrier a lat cur
  | .bobToAlice a b cur => .b2aMeta a b cur
  | .truncate v => .lRole (some v)
  | .loserCanFinish => .lRole none
  | .leaderCanFinish v => .fRole v

/-- One micro-step of the background task: the endpoint, what is left in its incoming channel, what it sends.
`fr` is the contribution generated by `stage0_bob`, if this is that step. -/
def bStep (maxR : Nat) (init : Bool) (x : EP) (inn : List Msg) (fr : Nat) : EP × List Msg × List Msg :=
  match x.b with
  | .recv =>
    match inn with
    | [] => (x, inn, [])
    | m :: rest => ({ x with b := dispatch m }, rest, [])
  | .bCommit a => ({ commit x ⟨a, fr⟩ with b := .bToggle2 a fr }, inn, [])
  | .bSend a b => ({ x with b := .recv }, inn, [.bobToAlice a b x.rmeta])
  | .aSendTrunc v => ({ x with b := .recv }, inn, [.truncate v])
  | .aSendLoser => ({ x with b := .recv }, inn, [.loserCanFinish])
  | .lSend => ({ x with b := .retain }, inn, [.leaderCanFinish x.latest])
  | _ => (bLocal maxR init x, inn, [])

/-- The micro-steps of the trigger task that do not send.  `fr` is the contribution of the new constructor, if this is
that step. -/
def tLocal (x : EP) (fr : Nat) : EP :=
  match x.t with
  | .idle => { x with t := .declared { vE := x.latest, tm := 0, c := 0, sn := 0, r := 0 } }
  | .declared l => if l.vE < x.declared then { x with t := .idle } else { x with t := .role l }
  | .role l => if x.role = .idle then { x with t := .top l } else { x with t := .idle }
  | .top l =>
    if l.r ≥ maxRetries then { x with t := .idle } else { x with t := .version { l with tm := x.latest } }
  | .version l => if l.vE < x.latest then { x with t := .idle } else { x with t := .next l }
  | .next l =>
    if x.tog = true then { x with t := .idle }
    else if hasLatest x then { x with tog := true, t := .snap { l with c := fr } }
    else { x with tog := true, t := .idle }
  | .snap l => { x with t := .declare { l with sn := x.latest } }
  | .declare l => { x with declared := x.declared + 1, t := .store l }
  | .store l => { x with cons := put x.cons (l.tm + 1) l.c, t := .toggle l }
  | .toggle l => { x with tog := true, t := .check l }
  | .check l => if x.latest = l.sn then { x with t := .send l } else { x with t := .rSync l }
  | .rSync l => { x with declared := x.latest, t := .rRemove l }
  | .rRemove l => { x with cons := del x.cons (l.tm + 1), t := .rOff l }
  | .rOff l => { x with tog := false, t := .sleep l }
  | .sleep l => { x with t := .top { l with r := l.r + 1 } }
  | .send _ => x

/-- One micro-step of the trigger task. -/
def tStep (x : EP) (fr : Nat) : EP × List Msg :=
  match x.t with
  | .send l => ({ x with t := .idle }, [.aliceToBob l.c l.sn l.tm])
  | _ => (tLocal x fr, [])

/-- The two endpoints and the messages under way to each. -/
structure Sys where
  i : EP
  n : EP
  toI : List Msg
  toN : List Msg

/-- A scheduling decision: which task of which endpoint (`true`: the initiator of the session), and the contribution
generated if the step generates one. -/
inductive Act where
  | bg (who : Bool) (fr : Nat)
  | trig (who : Bool) (fr : Nat)
deriving DecidableEq, Repr

/-- One micro-step under a preemptive scheduler. -/
def fineStep (maxR : Nat) (s : Sys) : Act → Sys
  | .bg true fr =>
    let r := bStep maxR true s.i s.toI fr
    { s with i := r.1, toI := r.2.1, toN := s.toN ++ r.2.2 }
  | .bg false fr =>
    let r := bStep maxR false s.n s.toN fr
    { s with n := r.1, toN := r.2.1, toI := s.toI ++ r.2.2 }
  | .trig true fr =>
    let r := tStep s.i fr
    { s with i := r.1, toN := s.toN ++ r.2 }
  | .trig false fr =>
    let r := tStep s.n fr
    { s with n := r.1, toI := s.toI ++ r.2 }

/-- Where the background task stands at an `.await` or in a closure on the blocking thread pool.  (At `retain` only
the loser has just awaited the sending of its message, and on the error path there is no `.await` before line 709; that
the task may be interrupted there too only adds schedules, and makes errors visible between two steps.) -/
def bPoint : BPc → Bool
  | .recv => true
  | .bToggle _ => true
  | .bContended => true
  | .bCommit _ => true
  | .bToggle2 _ _ => true
  | .bSend _ _ => true
  | .aToggle _ _ => true
  | .aCommit _ _ => true
  | .aDereg _ => true
  | .aSendTrunc _ => true
  | .aSendLoser => true
  | .lSend => true
  | .retain => true
  | .errToggle => true
  | _ => false

/-- Where the background task runs on the blocking thread pool, beside the executor: the body of `update_sync_safe`. -/
def bBlocking : BPc → Bool
  | .bToggle _ => true
  | .bCommit _ => true
  | .aToggle _ _ => true
  | .aCommit _ _ => true
  | _ => false

/-- Where the trigger task can be interrupted: at an `.await`, or (`check`) between its two accesses to the toggle
after `stage0_alice`, where it keeps the executor but the blocking thread may run.  The other accesses between two
`.await`s commute with all the blocking thread does, but for one. -/
def tPoint : TPc → Bool
  | .idle => true
  | .declare _ => true
  | .check _ => true
  | .sleep _ => true
  | .send _ => true
  | _ => false

/-- Run the background task up to its next `.await`. -/
def bSettle (maxR : Nat) (init : Bool) : Nat → EP → EP
  | 0, x => x
  | fuel + 1, x => if bPoint x.b then x else bSettle maxR init fuel (bLocal maxR init x)

/-- Run the trigger task up to its next `.await`. -/
def tSettle (fr : Nat) : Nat → EP → EP
  | 0, x => x
  | fuel + 1, x => if tPoint x.t then x else tSettle fr fuel (tLocal x fr)

/-- Micro-steps between two `.await`s of the background task are at most five (see `bMacro_point`). -/
def bFuel : Nat := 12

/-- Micro-steps between two `.await`s of the trigger task are at most seven (see `tMacro_point`). -/
def tFuel : Nat := 8

/-- The background task from one `.await` to the next. -/
def bMacro (maxR : Nat) (init : Bool) (x : EP) (inn : List Msg) (fr : Nat) : EP × List Msg × List Msg :=
  let r := bStep maxR init x inn fr
  (bSettle maxR init bFuel r.1, r.2)

/-- The trigger task from one interruption point to the next. -/
def tMacro (x : EP) (fr : Nat) : EP × List Msg :=
  let r := tStep x fr
  (tSettle fr tFuel r.1, r.2)

/-- Does the trigger task keep the executor of its endpoint? -/
def holdsExecutor (x : EP) : Bool :=
  match x.t with
  | .check _ => true
  | _ => false

/-- May the background task run? -/
def bgEnabled (x : EP) : Bool := !holdsExecutor x || bBlocking x.b

/-- One step under a cooperative scheduler: a task of an endpoint runs from one `.await` to the next. -/
def coopStep (maxR : Nat) (s : Sys) : Act → Sys
  | .bg true fr =>
    if bgEnabled s.i then
      let r := bMacro maxR true s.i s.toI fr
      { s with i := r.1, toI := r.2.1, toN := s.toN ++ r.2.2 }
    else s
  | .bg false fr =>
    if bgEnabled s.n then
      let r := bMacro maxR false s.n s.toN fr
      { s with n := r.1, toN := r.2.1, toI := s.toI ++ r.2.2 }
    else s
  | .trig true fr =>
    let r := tMacro s.i fr
    { s with i := r.1, toN := s.toN ++ r.2 }
  | .trig false fr =>
    let r := tMacro s.n fr
    { s with n := r.1, toI := s.toI ++ r.2 }

/-- Any number of steps. -/
def run (step : Sys → Act → Sys) : Sys → List Act → Sys
  | s, [] => s
  | s, a :: as => run step (step s a) as

/-- An endpoint with one ratchet, version `v`, shared with its peer: `PeerSessionCrypto::new` (lines 104-117) and
`RatchetManager::new`; the background task waits in its first round. -/
def freshEP (v : Nat) (k : Key) : EP :=
  { latest := v, declared := v, tog := false, role := .idle, oldest := v, most := v
    cons := fun _ => none, keys := put (fun _ => none) v k
    b := .recv, rmeta := v, skipped := 0, t := .idle }

/-- A new session: both endpoints hold the ratchet of the key exchange. -/
def start (v : Nat) (k : Key) : Sys :=
  { i := freshEP v k, n := freshEP v k, toI := [], toN := [] }

end Verif.Rekey

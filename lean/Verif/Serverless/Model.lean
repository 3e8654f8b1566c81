import Verif.Common.AssocMap

/-
Two browsers that find each other in a room of a signaling service and open a WebRTC data channel, without a server.

Source:
  /repo/citadel_proto/src/proto/misc/serverless.rs lines 75-136 (`establish_serverless_connection`), 139-170
    (`poll_for_peer`), 173-208 (`alpha_flow`), 211-245 (`beta_flow`), 248-272 (`poll_for_key`),
  /repo/citadel_proto/src/proto/misc/signaling.rs lines 60-104 (`HelloMessage`, `SdpExchange`, `derive_room_id`,
    `compute_identity_hash`, `determine_is_server`),
  /repo/citadel_proto/src/proto/misc/signaling_firebase.rs lines 145-201 (what `publish`, `read`, `list_children` and
    `delete_room` do to the room),
  /repo/citadel_proto/src/proto/misc/wasm_rtc.rs lines 232-295 (`wait_for_datachannel_open`,
    `wait_for_remote_datachannel`).

Simplifications:
* A call of `establish_serverless_connection` is an attempt, named by a number. All attempts of a run hold the same
  token, so there is one room. The attempt `i` has the identity hash `H i`, a string (a list of characters) about which
  nothing is assumed.
* A request to the signaling service takes effect at once. For the answer of the Beta side the reply to the request
  (the end of the `await`) is a step of its own, since the handler for the data channel is set only after it.
* An offer is named by the attempt that made it, an answer by the attempt that made it and the offer it answers. The
  data channel between `i` and `j` comes up exactly if `i` applied the answer of `j` to the offer of `i`, and both are
  still there: WebRTC checks the fingerprints of both ends.
* `ondatachannel` fires once at the Beta side. If no handler is set then, the event is lost.
* Only calls of this function write to the room. Errors of the signaling service are the step `leave`.
-/
namespace Verif.Serverless

/-- `Ord` of `str`: byte by byte. -/
def strLt : List Nat → List Nat → Bool
  | _, [] => false
  | [], _ :: _ => true
  | a :: as, b :: bs => if a < b then true else if b < a then false else strLt as bs

/-- `determine_is_server(my_hash, their_hash)`: `my_hash > their_hash`. -/
def determineIsServer (my their : List Nat) : Bool := strLt their my

/-- `&my_hash[..16]`: the name under which the greeting of an attempt is published. -/
def participantKey (h : List Nat) : List Nat := h.take 16

/-- What the service holds for the room. -/
structure Room where
  /-- `participants/{key}`: the hash in the `HelloMessage`. -/
  participants : AMap (List Nat) (List Nat)
  /-- `offer`: who made it. -/
  offer : Option Nat
  /-- `answer`: who made it, and whose offer it answers. -/
  answer : Option (Nat × Nat)
deriving DecidableEq, Repr

/-- A room nobody wrote to, or that was deleted. -/
def Room.empty : Room := ⟨[], none, none⟩

/-- Where an attempt is. -/
inductive Phase where
  /-- Not begun. -/
  | idle
  /-- In `poll_for_peer`. -/
  | greeted
  /-- `poll_for_peer` returned this hash; the side that is no server polls for the offer. -/
  | found (their : List Nat)
  /-- Alpha: the offer is published, `poll_for_key("answer")`. -/
  | offered (their : List Nat)
  /-- Alpha: the answer of this attempt to the offer of that attempt is applied, `wait_for_datachannel_open`. -/
  | applied (their : List Nat) (by_ : Nat) (to_ : Nat)
  /-- Beta: the answer to the offer of this attempt is stored, the reply to the request is not there yet. `true`: the
  data channel has shown up meanwhile, unseen. -/
  | answering (their : List Nat) (to_ : Nat) (missed : Bool)
  /-- Beta: in `wait_for_remote_datachannel`. -/
  | waiting (their : List Nat) (to_ : Nat) (missed : Bool)
  /-- The data channel is open, the room is not deleted yet. -/
  | opened (their : List Nat) (server : Bool) (peer : Nat)
  /-- `establish_serverless_connection` returned a connection. -/
  | done (their : List Nat) (server : Bool) (peer : Nat)
deriving DecidableEq, Repr

structure St where
  room : Room
  phase : Nat → Phase
  /-- The call returned an error or was given up (the page was closed). -/
  gone : Nat → Bool

def init : St := ⟨Room.empty, fun _ => .idle, fun _ => false⟩

inductive Act where
  /-- Steps 1 and 2: publish the greeting. -/
  | greet (i : Nat)
  /-- Step 3: a round of `poll_for_peer` that comes to this hash first. The order in which a `HashMap` is walked through
  is not defined. -/
  | find (i : Nat) (their : List Nat)
  /-- Alpha publishes its offer. -/
  | offer (i : Nat)
  /-- Alpha reads an answer and applies it. -/
  | apply (i : Nat)
  /-- Beta reads an offer and publishes its answer. -/
  | answer (i : Nat)
  /-- The reply to the request that published the answer. -/
  | replied (i : Nat)
  /-- The data channel of Alpha opens. -/
  | up (i : Nat)
  /-- `ondatachannel` fires at the Beta side. -/
  | event (i : Nat)
  /-- Step 6: the room is deleted, the call returns. -/
  | finish (i : Nat)
  /-- The deadline of a polling loop. -/
  | timeout (i : Nat)
  /-- The call ends early: an error of the service, the page is closed. -/
  | leave (i : Nat)
deriving DecidableEq, Repr

/-- Whose step it is. -/
def Act.who : Act → Nat
  | .greet i | .find i _ | .offer i | .apply i | .answer i | .replied i | .up i | .event i | .finish i | .timeout i
  | .leave i => i

def setPhase (s : St) (i : Nat) (p : Phase) : St :=
  { s with phase := fun j => if j = i then p else s.phase j }

def setGone (s : St) (i : Nat) : St :=
  { s with gone := fun j => if j = i then true else s.gone j }

/-- Attempt `j` is there and has answered the offer of `i`: the other end of the data channel exists. -/
def endUp (s : St) (j i : Nat) : Bool :=
  !s.gone j &&
    match s.phase j with
    | .answering _ o _ => decide (o = i)
    | .waiting _ o _ => decide (o = i)
    | .opened _ false o => decide (o = i)
    | .done _ false o => decide (o = i)
    | _ => false

/-- Attempt `i` is there and has applied the answer of `j` to its own offer. -/
def alphaUp (s : St) (i j : Nat) : Bool :=
  !s.gone i &&
    match s.phase i with
    | .applied _ b o => decide (b = j) && decide (o = i)
    | .opened _ true b => decide (b = j)
    | .done _ true b => decide (b = j)
    | _ => false

/-- One step; `none`: it cannot happen now. -/
def step (H : Nat → List Nat) (s : St) (a : Act) : Option St :=
  if s.gone a.who then none else
  match a with
  | .greet i =>
    match s.phase i with
    | .idle =>
      some { setPhase s i .greeted with
        room := { s.room with participants := s.room.participants.insert (participantKey (H i)) (H i) } }
    | _ => none
  | .find i their =>
    match s.phase i with
    | .greeted =>
      if 2 ≤ s.room.participants.length ∧ their ∈ s.room.participants.map Prod.snd ∧ their ≠ H i then
        some (setPhase s i (.found their))
      else none
    | _ => none
  | .offer i =>
    match s.phase i with
    | .found their =>
      if determineIsServer (H i) their then
        some { setPhase s i (.offered their) with room := { s.room with offer := some i } }
      else none
    | _ => none
  | .apply i =>
    match s.phase i with
    | .offered their =>
      match s.room.answer with
      | some (b, o) => some (setPhase s i (.applied their b o))
      | none => none
    | _ => none
  | .answer i =>
    match s.phase i with
    | .found their =>
      if determineIsServer (H i) their then none
      else
        match s.room.offer with
        | some o =>
          some { setPhase s i (.answering their o false) with room := { s.room with answer := some (i, o) } }
        | none => none
    | _ => none
  | .replied i =>
    match s.phase i with
    | .answering their o m => some (setPhase s i (.waiting their o m))
    | _ => none
  | .up i =>
    match s.phase i with
    | .applied their b o =>
      if o = i ∧ endUp s b i = true then some (setPhase s i (.opened their true b)) else none
    | _ => none
  | .event i =>
    match s.phase i with
    | .answering their o false =>
      if alphaUp s o i then some (setPhase s i (.answering their o true)) else none
    | .waiting their o false =>
      if alphaUp s o i then some (setPhase s i (.opened their false o)) else none
    | _ => none
  | .finish i =>
    match s.phase i with
    | .opened their srv p => some { setPhase s i (.done their srv p) with room := Room.empty }
    | _ => none
  | .timeout i =>
    match s.phase i with
    | .greeted => some (setGone s i)
    | .found their => if determineIsServer (H i) their then none else some (setGone s i)
    | .offered _ => some (setGone s i)
    | _ => none
  | .leave i =>
    match s.phase i with
    | .idle => none
    | .done _ _ _ => none
    | _ => some (setGone s i)

/-- A list of steps, one after the other. -/
def run (H : Nat → List Nat) : St → List Act → Option St
  | s, [] => some s
  | s, a :: as =>
    match step H s a with
    | some t => run H t as
    | none => none

end Verif.Serverless

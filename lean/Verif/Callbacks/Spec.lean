import Verif.Callbacks.Model
/-!
# What a subscription should get

Stated on the list of the actions alone, without the map of the listeners.
-/
namespace Verif.Callbacks

/-- A result concerns a subscription: the same ticket and, if the subscription names a session, the
same session. -/
def Concerns (k : Key) (r : NodeResult) : Prop :=
  ∃ received, r.key = some received ∧ received.ticket = k.ticket ∧
    (k.cid = none ∨ received.cid = k.cid)

instance (k : Key) (r : NodeResult) : Decidable (Concerns k r) :=
  match h : r.key with
  | none => .isFalse (by rintro ⟨_, h1, _⟩; simp [h] at h1)
  | some q =>
      if h2 : q.ticket = k.ticket ∧ (k.cid = none ∨ q.cid = k.cid) then
        .isTrue ⟨q, h, h2.1, h2.2⟩
      else .isFalse (by
        rintro ⟨q', h1, h3⟩
        rw [h, Option.some.injEq] at h1
        subst h1
        exact h2 h3)

/-- The results that concern the subscription number `i` under `k`, until it ends. -/
def window (i : Nat) (k : Key) : List Act → List NodeResult
  | [] => []
  | .drop j :: as => if j = i then [] else window i k as
  | .unlisten q :: as => if q = k then [] else window i k as
  | .result r _ :: as => if Concerns k r then r :: window i k as else window i k as
  | .subscribe _ :: as => window i k as
  | .poll _ :: as => window i k as

/-- What the subscription number `i` should get, when `n` subscriptions came before `as`. -/
def streamOf (i : Nat) : Nat → List Act → List NodeResult
  | _, [] => []
  | n, .subscribe k :: as => if n = i then window i k as else streamOf i (n + 1) as
  | n, .drop _ :: as => streamOf i n as
  | n, .unlisten _ :: as => streamOf i n as
  | n, .result _ _ :: as => streamOf i n as
  | n, .poll _ :: as => streamOf i n as

/-- The tickets of the subscriptions, in order. -/
def tickets : List Act → List Nat
  | [] => []
  | .subscribe k :: as => k.ticket :: tickets as
  | .drop _ :: as => tickets as
  | .unlisten _ :: as => tickets as
  | .result _ _ :: as => tickets as
  | .poll _ :: as => tickets as

/-- The key of the subscription number `i`, when `n` came before. -/
def keyOf (i : Nat) : Nat → List Act → Option Key
  | _, [] => none
  | n, .subscribe k :: as => if n = i then some k else keyOf i (n + 1) as
  | n, .drop _ :: as => keyOf i n as
  | n, .unlisten _ :: as => keyOf i n as
  | n, .result _ _ :: as => keyOf i n as
  | n, .poll _ :: as => keyOf i n as

/-- The results that arrived, in order. -/
def arrived : List Act → List NodeResult
  | [] => []
  | .result r _ :: as => r :: arrived as
  | .subscribe _ :: as => arrived as
  | .drop _ :: as => arrived as
  | .unlisten _ :: as => arrived as
  | .poll _ :: as => arrived as

/-- How often `r` is in a channel or with the kernel. -/
def placed (s : St) (r : NodeResult) : Nat :=
  s.deflt.count r + ((List.range s.next).map (fun i => (s.log i).count r)).sum

/-- The result that a call asks for. -/
def Answers : Call → NodeResult → Prop
  | .register, r => ∃ t c, r = .registerOkay t c
  | .connect _, r => ∃ t c, r = .connectSuccess t c
  | .localGroupPeers _, r => ∃ t c g, r = .peerEvent t c (.registeredPeers true) g
  | .mutualPeers _, r => ∃ t c g, r = .peerEvent t c (.mutuals true) g
  | .sessions, r => ∃ t, r = .sessionList t
  | .listSessions, r => ∃ t, r = .sessionList t
  | .sendFile _, r => ∃ t c g, r = .objectHandle t c g
  | .revfsPull _, r => ∃ t c g, r = .objectHandle t c g
  | .revfsDelete _, r => ∃ t c, r = .revfs t c false
  | .connectPeer _, r => ∃ t c, r = .peerChannel t c
  | .registerPeer _, r => ∃ t c a g, r = .peerEvent t c (.postRegister (some a)) g ∧ a ≠ .other
  | .deregisterPeer _, r => ∃ t c g, r = .peerEvent t c .deregistered g
  | .deregister _, r => ∃ t c, r = .deregistration t c true
  | .disconnectPeer _, r => ∃ t c g, r = .peerEvent t c (.disconnect true) g
  | .disconnect _, r => ∃ t c, r = .disconnect t c true
  | .createGroup _, r => ∃ t c, r = .groupCreated t c
  | .listGroups _, r => ∃ t c g, r = .groupEvent t c .list g
  | .rekey _, r => ∃ t c, r = .rekeyResult t c true

/-- The refusal of what a call asks for, where the results have one. -/
def Refuses : Call → NodeResult → Prop
  | .revfsDelete _, r => ∃ t c, r = .revfs t c true
  | .deregister _, r => ∃ t c, r = .deregistration t c false
  | .disconnect _, r => ∃ t c, r = .disconnect t c false
  | .rekey _, r => ∃ t c, r = .rekeyResult t c false
  | .connectPeer _, r => ∃ t c a g, r = .peerEvent t c (.postConnect (some a)) g ∧ (a = .decline ∨ a = .timeout)
  | .register, r => ∃ t c b, r = .disconnect t c b
  | _, _ => False

/-- The ticket, and the session if there is one, that a result names (the fields of the structures in node_result.rs). -/
inductive Names : NodeResult → Nat → Option Nat → Prop
  | registerOkay (t c) : Names (.registerOkay t c) t (some c)
  | registerFailure (t) : Names (.registerFailure t) t none
  | deregistration (t c b) : Names (.deregistration (some t) c b) t (some c)
  | connectSuccess (t c) : Names (.connectSuccess t c) t (some c)
  | connectFail (t c) : Names (.connectFail t c) t c
  | rekeyResult (t c b) : Names (.rekeyResult t c b) t (some c)
  | revfs (t c b) : Names (.revfs t c b) t (some c)
  | rejected (t) : Names (.rejected t) t none
  | objectHandle (t c g) : Names (.objectHandle t c g) t (some c)
  | mailbox (t c) : Names (.mailbox (some t) c) t (some c)
  | peerEvent (t c e g) : Names (.peerEvent t c e g) t (some c)
  | groupCreated (t c) : Names (.groupCreated t c) t (some c)
  | groupEvent (t c e g) : Names (.groupEvent t c e g) t (some c)
  | disconnect (t c b) : Names (.disconnect t c b) t c
  | internalError (t c) : Names (.internalError (some t) c) t c
  | peerChannel (t c) : Names (.peerChannel t c) t (some c)
  | sessionList (t) : Names (.sessionList t) t none

/-- The results that report that something went wrong, whatever was asked for. -/
inductive Failure : NodeResult → Prop
  | connect (t c) : Failure (.connectFail t c)
  | register (t) : Failure (.registerFailure t)
  | rejected (t) : Failure (.rejected t)
  | internal (t c) : Failure (.internalError t c)
  | signal (t c g) : Failure (.peerEvent t c .error g)

/-- The calls that take anything they did not ask for as an error: all but the notice that the request has arrived. -/
def Impatient : Call → NodeResult → Prop
  | .connect _, _ => True
  | .listSessions, _ => True
  | .revfsPull _, r => ∀ t c g, r ≠ .peerEvent t c .received g
  | _, _ => False

end Verif.Callbacks

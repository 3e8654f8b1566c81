import Verif.Login.Model
/-!
What the two sides of a login may rely on, in terms of what sessions sent.
-/
namespace Verif.Login

/-- Session `cl` asked for a login under the long-term key of `r0` (held by the answering side) and session `sv` answered
with the session key `k`: the request with ephemeral key `e` and the answer to it were really sent. -/
def Handshake (w : World) (cl sv : Nat) (r0 : Ratchet) (e : Eph) (k : KeyId) (cid : Cid) : Prop :=
  ∃ u q p, (cl, q) ∈ w.log ∧ q.body = .syn e u ∧ q.sealed = some ⟨r0.key, !r0.alice⟩ ∧ q.cid = cid ∧
    (sv, p) ∈ w.log ∧ p.body = .synAck e k ∧ p.sealed = some ⟨r0.key, r0.alice⟩

/-- Session `cl` presented credentials `c` under the session key. -/
def Presented (w : World) (cl : Nat) (k : KeyId) (c : Creds) : Prop :=
  ∃ m, (cl, m) ∈ w.log ∧ m.body = .connStage0 c ∧ m.sealed = some ⟨k, true⟩

/-- Session `sv` announced success under the session key. -/
def Welcomed (w : World) (sv : Nat) (k : KeyId) : Prop :=
  ∃ m, (sv, m) ∈ w.log ∧ m.body = .connSuccess ∧ m.sealed = some ⟨k, false⟩

/-- The session `sid` has an account whose long-term key is `r0`. -/
def Under (s : Sess) (a : Acct) (r0 : Ratchet) : Prop := s.cnac = some a ∧ a.static = some r0

/-- The server session `sv` accepted the login of client session `cl`. -/
def Accepted (P : Prims) (w : World) (cl sv : Nat) (a : Acct) (r0 : Ratchet) : Prop :=
  ∃ e k c, Handshake w cl sv r0 e k a.cid ∧ Presented w cl k c ∧ validate P a.auth c = true

/-- Client session `cl` with the long-term key of `r0` got its session key from session `sv`, which accepted the
credentials that `cl` presented and announced success. -/
def Served (P : Prims) (w : World) (cl sv : Nat) (r0 : Ratchet) : Prop :=
  ∃ (e : Eph) (k : KeyId) (c : Creds) (a : Acct), Handshake w cl sv ⟨r0.key, !r0.alice, r0.cid⟩ e k r0.cid ∧
    Presented w cl k c ∧ validate P a.auth c = true ∧ Welcomed w sv k

/-- The credentials are made from what a user of some node entered. -/
def Entered (P : Prims) (evs : List Ev) (c : Creds) : Prop :=
  (∃ node cid pw t udp a, Ev.login node cid pw t udp ∈ evs ∧ c = connectCreds P a pw) ∨
  (∃ node full user pw t salt, Ev.register node full user pw t salt ∈ evs ∧ c = newRegister P full user pw salt) ∨
  ∃ node user t udp, Ev.transient node user t udp ∈ evs ∧ c = .disabled user

/-- No SYN was delivered to session `sid`. -/
def NoSyn (evs : List Ev) (sid : Nat) : Prop :=
  ∀ p o, Ev.recv sid p o ∈ evs → ∀ e u, p.body ≠ .syn e u

/-- Packets delivered to session `sid` whose body satisfies `f`. -/
def deliveries (sid : Nat) (f : Body → Bool) (evs : List Ev) : Nat :=
  evs.countP fun
    | .recv i p _ => decide (i = sid) && f p.body
    | _ => false

def Body.isSyn : Body → Bool
  | .syn _ _ => true
  | .synAck _ _ => true
  | _ => false

def Body.isConn : Body → Bool
  | .connStage0 _ => true
  | .connSuccess => true
  | _ => false

/-- Perform the events in order. -/
def World.steps (P : Prims) : World → List Ev → World
  | w, [] => w
  | w, ev :: evs => World.steps P (w.step P ev) evs

end Verif.Login

import Verif.Login.Spec
/-!
Executable runs: a decision procedure for what the attacker can send, and the honest course of a registration and a login.
-/
namespace Verif.Login

def World.known (w : World) : KeyId → Bool
  | .atk _ => true
  | k => w.leaked.contains k

theorem World.known_iff (w : World) (k : KeyId) : w.known k = true ↔ w.Known k := by
  cases k <;> simp [World.known, World.Known]

def World.canSend (w : World) (p : Pkt) : Bool :=
  w.log.any (fun x => decide (x.2 = p)) ||
  ((match p.sealed with | none => true | some s => w.known s.key) &&
   (match p.body.encap with
    | none => true
    | some (e, k) => w.known k || w.log.any (fun x => decide (x.2.body.encap = some (e, k)))) &&
   (match p.body.eph with | some (.hon n) => decide (n < w.nextEph) | _ => true))

theorem World.canSend_sound {w : World} {p : Pkt} (h : w.canSend p = true) : w.CanSend p := by
  unfold World.canSend at h
  simp only [Bool.or_eq_true, List.any_eq_true, decide_eq_true_eq, Bool.and_eq_true] at h
  rcases h with ⟨x, hx, rfl⟩ | ⟨⟨h1, h2⟩, h3⟩
  · exact .inl ⟨x.1, hx⟩
  · refine .inr ⟨?_, ?_, ?_⟩
    · intro s hs
      rw [hs] at h1
      exact (w.known_iff _).1 h1
    · intro e k he
      rw [he] at h2
      simp only [Bool.or_eq_true, List.any_eq_true, decide_eq_true_eq] at h2
      rcases h2 with h2 | ⟨x, hx, h2⟩
      · exact .inl ((w.known_iff _).1 h2)
      · exact .inr ⟨x.1, x.2, hx, h2⟩
    · intro n hn
      rw [hn] at h3
      exact of_decide_eq_true h3

def World.allowed (w : World) : Ev → Bool
  | .recv _ p _ => w.canSend p
  | .steal n => decide (n < w.nextKey)
  | _ => true

theorem World.allowed_sound {w : World} {ev : Ev} (h : w.allowed ev = true) : w.Allowed ev := by
  cases ev with
  | recv sid p o => exact World.canSend_sound h
  | steal n => exact of_decide_eq_true (p := n < w.nextKey) h
  | _ => trivial

def runnable (P : Prims) : World → List Ev → Bool
  | _, [] => true
  | w, ev :: evs => w.allowed ev && runnable P (w.step P ev) evs

theorem Run.extend {P : Prims} {evs : List Ev} {w : World} (h : Run P evs w) (evs' : List Ev)
    (hr : runnable P w evs' = true) : Run P (evs ++ evs') (w.steps P evs') := by
  induction evs' generalizing evs w with
  | nil => simpa [World.steps] using h
  | cons ev evs' ih =>
    simp only [runnable, Bool.and_eq_true] at hr
    have := ih (h.step (World.allowed_sound hr.1)) hr.2
    simpa [World.steps] using this

theorem run_of_runnable {P : Prims} {evs : List Ev} (h : runnable P World.init evs = true) :
    Run P evs (World.init.steps P evs) := by
  simpa using Run.init.extend evs h

/-! ### Honest runs -/

def yes : Oracle := ⟨true, false, 0⟩

/-- Deliver the packet that was sent last to session `sid`. -/
def World.relay (P : Prims) (sid : Nat) (w : World) : World :=
  match w.log.getLast? with
  | none => w
  | some x => w.step P (.recv sid x.2 yes)

/-- Session `sid` goes on with its oldest continuation. -/
def World.goOn (P : Prims) (sid salt : Nat) (w : World) : World := w.step P (.resume sid 0 ⟨true, false, salt⟩)

/-- What a user enters, and what is chosen at random, in a registration followed by a login. -/
structure Entry where
  server : Nat
  client : Nat
  full : Name
  user : Name
  password : List Nat
  salt : Nat
  salt' : Nat
  t1 : Nat
  t2 : Nat

/-- The registration of a user with a server, nobody interfering. Sessions: 0 at the server, 1 at the client. -/
def registration (P : Prims) (x : Entry) : World :=
  let w := (World.init.step P (.accept x.server)).step P (.register x.client x.full x.user x.password x.t1 x.salt)
  let w := ((w.relay P 0).goOn P 0 0)
  let w := ((w.relay P 1).goOn P 1 0)
  let w := ((w.relay P 0).goOn P 0 x.salt')
  ((w.relay P 1).goOn P 1 0)

/-- The login of this user with a password. Sessions: 2 at the server, 3 at the client. -/
def thenLogin (P : Prims) (x : Entry) (password : List Nat) : World :=
  let w := ((registration P x).step P (.accept x.server)).step P
    (.login x.client (P.cidOf (trim P.ws x.user)) password x.t2 false)
  let w := ((w.relay P 2).goOn P 2 0)
  let w := (w.relay P 3)
  let w := (w.relay P 2)
  let w := (w.relay P 3)
  let w := (((w.relay P 2).goOn P 2 0).goOn P 2 0)
  let w := (w.relay P 3)
  (w.relay P 2)

/-- Both sides of the login are connected and have their channels. -/
def LoggedIn (w : World) : Prop :=
  ∃ s c : Sess, w.sess[2]? = some s ∧ w.sess[3]? = some c ∧ s.state = .connected ∧ c.state = .connected ∧
    s.channel ≠ none ∧ c.channel = s.channel

/-- The user name is acceptable: it has a CID other than that of the local account, and the server's rules for names are
met. -/
def Entry.Acceptable (P : Prims) (x : Entry) : Prop :=
  P.cidOf (trim P.ws x.user) ≠ 0 ∧ P.okNames (trim P.ws x.user) (trim P.ws x.full) = true ∧ x.server ≠ x.client

/-- A connection without password, nobody interfering. Sessions: 0 at the server, 1 at the client. -/
def transientLogin (P : Prims) (server client : Nat) (user : Name) (ticket salt : Nat) : World :=
  let w := (World.init.step P (.accept server)).step P (.transient client user ticket false)
  let w := ((w.relay P 0).goOn P 0 0)
  let w := ((w.relay P 1).goOn P 1 0)
  let w := ((w.relay P 0).goOn P 0 salt)
  let w := ((w.relay P 1).goOn P 1 0)
  let w := ((w.relay P 0).goOn P 0 0)
  let w := (w.relay P 1)
  let w := (w.relay P 0)
  let w := (w.relay P 1)
  let w := (((w.relay P 0).goOn P 0 0).goOn P 0 0)
  let w := (w.relay P 1)
  (w.relay P 0)

end Verif.Login

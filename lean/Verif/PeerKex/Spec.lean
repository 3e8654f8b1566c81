/-
A relay that does not keep to the protocol.

Every signal between two peers passes the central server, in a packet the server decrypts.  The server here may keep,
change, repeat and make up signals.  It knows the secrets of the names it made itself (`Who.other`) and some session
passwords (`known`); it can encrypt the banks of Bob for a key pair it has seen, if it knows the password, and it can
repeat what it has seen.
-/
import Verif.PeerKex.Model

namespace Verif.PeerKex

/-- Two clients, everything they have sent, and the next unused number. -/
structure Hostile where
  a : Slot
  b : Slot
  sent : List Msg := []
  next : Nat := 1
deriving DecidableEq, Repr

def hostile (ca cb : Nat) : Hostile :=
  { a := { who := .a, me := ca, peer := cb }, b := { who := .b, me := cb, peer := ca } }

def Hostile.slot (w : Hostile) : Side → Slot
  | .a => w.a
  | .b => w.b

def Hostile.setSlot (w : Hostile) (i : Side) (s : Slot) : Hostile :=
  match i with
  | .a => { w with a := s }
  | .b => { w with b := s }

def seen0 (sent : List Msg) (x : Nonce) : Bool :=
  sent.any fun m => match m with | .stage0 x' _ => x' == x | _ => false

def seen1 (sent : List Msg) (x y : Nonce) (psk : Nat) : Bool :=
  sent.any fun m => match m with | .stage1 x' y' p _ => x' == x && y' == y && p == psk | _ => false

/-- What the relay can say. -/
def forge (known : Nat → Bool) (sent : List Msg) : Msg → Bool
  | .stage0 x _ => x.who == .other || seen0 sent x
  | .stage1 x y psk _ =>
    (x.who == .other || seen0 sent x) && y.who == .other && known psk || seen1 sent x y psk
  | _ => true

/-- The relay can compute the key. -/
def knows (known : Nat → Bool) (k : Key) : Prop := (k.x.who = .other ∨ k.y.who = .other) ∧ known k.psk = true

inductive HAct where
  /-- The user enters a password, to ask or to answer. -/
  | ask (i : Side) (psk : Nat) (m : Msg)
  /-- The relay sends a signal to client `i`, and it is processed. -/
  | say (i : Side) (m : Msg)
  | punched (i : Side) (n : Nat) (unregistered : Bool)
  | dropped (i : Side) (id : Nat)
deriving DecidableEq, Repr

def Hostile.did (w : Hostile) (i : Side) (r : Slot × List Msg) : Hostile :=
  { w.setSlot i r.1 with sent := w.sent ++ r.2, next := w.next + 1 }

def hstep (known : Nat → Bool) (w : Hostile) : HAct → Hostile
  | .ask i p m => if m = .request ∨ m = .accept then w.did i (ask (w.slot i) p m) else w
  | .say i m => if forge known w.sent m then w.did i (handle (w.slot i) w.next m) else w
  | .punched i n u => w.did i (punched (w.slot i) n u)
  | .dropped i id => w.did i (dropChannel (w.slot i) id)

def hrun (known : Nat → Bool) (w : Hostile) : List HAct → Hostile
  | [] => w
  | t :: ts => hrun known (hstep known w t) ts

/-- The action is an ask of client `i`. -/
def HAct.asks (i : Side) : HAct → Bool
  | .ask j _ _ => i == j
  | _ => false

/-- The name that client `i` makes. -/
def Side.who : Side → Who
  | .a => .a
  | .b => .b

end Verif.PeerKex

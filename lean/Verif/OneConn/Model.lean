/-
The kernel that makes one connection to a server: the settings, the calls it makes with them, and what becomes of the
events of the node.

Source:
  /repo/citadel_sdk/src/prefabs/client/mod.rs lines 114-290 (`ServerConnectionSettingsBuilder`,
    `ServerConnectionSettings`),
  /repo/citadel_sdk/src/prefabs/client/single_connection.rs lines 73-283 (`SingleClientServerConnectionKernel`),
  /repo/citadel_sdk/src/prefabs/mod.rs lines 113-147 (`ClientServerRemote`).

Simplifications:
* Names, passwords, addresses, uuids, keys and security settings are numbers. Resolving the address either works or
  does not (`resolve`); the first address counts.
* The call of the function of the user, and what it returns, is one step each.
* `unwrap` and `expect` on `None` are the phase `panicked`.
-/
namespace Verif.OneConn

/-- `ServerConnectionSettingsBuilder`. -/
structure Builder where
  password : Option Nat
  username : Option Nat
  name : Option Nat
  psk : Option Nat
  address : Option Nat
  udp : Option Bool
  security : Option Nat
  uuid : Option Nat
  isConnect : Bool
deriving DecidableEq, Repr

/-- `base`. -/
def base (addr : Nat) : Builder where
  password := none
  username := none
  name := none
  psk := none
  address := some addr
  udp := none
  security := none
  uuid := none
  isConnect := false

/-- `transient_with_id`. -/
def transient (addr uuid : Nat) : Builder := { base addr with uuid := some uuid }
/-- `credentialed_registration`. -/
def registration (addr user alias_ pass : Nat) : Builder :=
  { base addr with password := some pass, username := some user, name := some alias_ }
/-- `credentialed_login`. -/
def login (addr user pass : Nat) : Builder :=
  { base addr with password := some pass, username := some user, isConnect := true }

def Builder.withPsk (b : Builder) (k : Nat) : Builder := { b with psk := some k }
def Builder.withUdp (b : Builder) (u : Bool) : Builder := { b with udp := some u }
def Builder.withSecurity (b : Builder) (x : Nat) : Builder := { b with security := some x }

/-- `ServerConnectionSettings` and, without the three settings common to all, `ConnectionType`. -/
inductive Auth where
  | transient (addr uuid : Nat)
  | connect (user pass : Nat)
  | register (addr user alias_ pass : Nat)
deriving DecidableEq, Repr

structure Settings where
  auth : Auth
  udp : Bool
  security : Nat
  psk : Option Nat
deriving DecidableEq, Repr

/-- `build`. UDP is off and the security settings are those of `dflt` if nothing else was chosen. -/
def Builder.build (resolve : Nat → Option Nat) (dflt : Nat) (b : Builder) : Option Settings :=
  let rest (a : Auth) : Settings := { auth := a, udp := b.udp.getD false, security := b.security.getD dflt, psk := b.psk }
  let go (server : Option Nat) : Option Settings :=
    match b.uuid with
    | some u => server.map fun a => rest (.transient a u)
    | none =>
      if b.isConnect then
        match b.username, b.password with
        | some u, some p => some (rest (.connect u p))
        | _, _ => none
      else
        match server, b.username, b.name, b.password with
        | some a, some u, some n, some p => some (rest (.register a u n p))
        | _, _, _, _ => none
  match b.address with
  | none => go none
  | some a =>
    match resolve a with
    | none => none
    | some a => go (some a)

/-! ### The kernel -/

/-- The calls to the node. -/
inductive Call where
  /-- `username_exists`. -/
  | exists_ (user : Nat)
  /-- `register`. -/
  | register (addr user alias_ pass security : Nat) (psk : Option Nat)
  /-- `connect`; the credentials are an address with a uuid, or a name with a password. -/
  | connect (auth : (Nat × Nat) ⊕ (Nat × Nat)) (udp : Bool) (security : Nat) (psk : Option Nat)
deriving DecidableEq, Repr

inductive Phase where
  | idle
  /-- Waiting for `username_exists`, `register`, `connect`, the function of the user. -/
  | asking (addr user alias_ pass : Nat)
  | registering (user pass : Nat)
  | connecting
  | running
  | returned (ok : Bool)
  | panicked
deriving DecidableEq, Repr

structure St where
  set : Settings
  /-- `auth_info` and `handler` are still there. -/
  fresh : Bool
  ph : Phase
  calls : List Call
  /-- How often the function of the user was called, with which session. -/
  handled : List Nat
  /-- `unprocessed_signal_filter_tx`, and what was sent through it. -/
  signals : Option (List Nat)
  /-- What was sent through `tx_incoming_object_transfer_handle`. -/
  files : List Nat
  /-- The user dropped the receiver of the signals, of the files. -/
  noSignals : Bool
  noFiles : Bool
deriving DecidableEq, Repr

def new (set : Settings) : St where
  set := set
  fresh := true
  ph := .idle
  calls := []
  handled := []
  signals := none
  files := []
  noSignals := false
  noFiles := false

/-- The call of `connect`. -/
def connectCall (s : St) (auth : (Nat × Nat) ⊕ (Nat × Nat)) : St :=
  { s with ph := .connecting, calls := s.calls ++ [.connect auth s.set.udp s.set.security s.set.psk] }

inductive Act where
  | start
  /-- The answer to `username_exists`, `register`, `connect`; `none` is an error. -/
  | known (r : Option Bool)
  | registered (ok : Bool)
  | connected (cid : Option Nat)
  /-- The function of the user returns. -/
  | done (ok : Bool)
  /-- An event of the node which is not an object transfer handle. -/
  | event (e : Nat)
  | file (h : Nat)
  | dropSignals
  | dropFiles
deriving DecidableEq, Repr

def step (s : St) : Act → St
  | .start =>
    if s.ph = .panicked then s
    else if s.fresh then
      let s := { s with fresh := false }
      match s.set.auth with
      | .transient addr uuid => connectCall s (.inl (addr, uuid))
      | .connect user pass => connectCall s (.inr (user, pass))
      | .register addr user alias_ pass =>
        { s with ph := .asking addr user alias_ pass, calls := s.calls ++ [.exists_ user] }
    else { s with ph := .panicked }
  | .known r =>
    match s.ph with
    | .asking addr user alias_ pass =>
      match r with
      | none => { s with ph := .returned false }
      | some true => connectCall s (.inr (user, pass))
      | some false =>
        { s with
          ph := .registering user pass,
          calls := s.calls ++ [.register addr user alias_ pass s.set.security s.set.psk] }
    | _ => s
  | .registered ok =>
    match s.ph with
    | .registering user pass => if ok then connectCall s (.inr (user, pass)) else { s with ph := .returned false }
    | _ => s
  | .connected r =>
    match s.ph with
    | .connecting =>
      match r with
      | none => { s with ph := .returned false }
      | some cid => { s with ph := .running, handled := s.handled ++ [cid], signals := some [] }
    | _ => s
  | .done ok =>
    match s.ph with
    | .running => { s with ph := .returned ok }
    | _ => s
  | .event e =>
    match s.signals with
    | none => s
    | some l => if s.noSignals then s else { s with signals := some (l ++ [e]) }
  | .file h => if s.noFiles then s else { s with files := s.files ++ [h] }
  | .dropSignals => if s.handled = [] then s else { s with noSignals := true }
  | .dropFiles => if s.handled = [] then s else { s with noFiles := true }

def run (s : St) (as : List Act) : St := as.foldl step s

end Verif.OneConn

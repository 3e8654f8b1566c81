/-!
Registration and login between a client and a server: `DO_REGISTER`, `DO_PRE_CONNECT` and `DO_CONNECT`.

Both roles run the same handlers on the same kind of session, so one model serves both. A handler runs without
interruption up to its first `.await`; the rest is a continuation in `pend` that is resumed by a later event, in any
order, with the values it captured. Simplifications:

* A ratchet is the name of the key material it was built from, the role (Alice or Bob) that decides which of the two
  directional keys it encrypts with, and the CID it was created for. AEAD is ideal: a packet is accepted iff it was sealed
  by the other role of the same ratchet. Replay protection is left out (the static ratchet's window is reset by every SYN
  anyway, `validation.rs`:258), which only gives an attacker more packets.
* A key encapsulation is the pair of the ephemeral key it was made for and the key inside. `stage1_alice` fails if it is
  not for its own ephemeral key.
* Security levels, protocol versions, NAT types, mailboxes and peer lists are not modelled. The pre-shared key is empty,
  which is the default.
* What the session manager decides (may this CID connect, can the session be upgraded), hole punching, QUIC and
  server-side failures of the backend are answers of an oracle.
-/
namespace Verif.Login

abbrev Name := List Nat
abbrev Cid := Nat

/-- Hash functions and checks the code gets from elsewhere. -/
structure Prims where
  /-- SHA3-256 of a password (`password_transform`) -/
  sha : List Nat → Nat
  /-- Argon2 with a salt and secret (named by a number) and associated data -/
  argon : Nat → Name → Nat → Nat
  /-- `username_to_cid`, `citadel_types/src/user/mod.rs`:51 -/
  cidOf : Name → Cid
  /-- white space -/
  ws : Nat → Bool
  /-- `CredentialRequirements::check` of user name and full name -/
  okNames : Name → Name → Bool

inductive KeyId
  /-- made by an honest node during a registration -/
  | dev (n : Nat)
  /-- made by an honest node during a login -/
  | sess (n : Nat)
  /-- made by somebody else -/
  | atk (n : Nat)
  deriving DecidableEq, Repr

/-- Ephemeral key pairs of the initiator. -/
inductive Eph
  | hon (n : Nat)
  | atk (n : Nat)
  deriving DecidableEq, Repr

structure Ratchet where
  key : KeyId
  alice : Bool
  cid : Cid
  deriving DecidableEq, Repr

structure Seal where
  key : KeyId
  alice : Bool
  deriving DecidableEq, Repr

/-- `ProposedCredentials`, `citadel_user/src/auth/proposed_credentials.rs`:56-70. -/
inductive Creds
  | enabled (user full : Name) (hashed : Nat)
  | disabled (user : Name)
  deriving DecidableEq, Repr

/-- `DeclaredAuthenticationMode` with the two kinds of `ArgonContainerType`. -/
inductive Auth
  | server (user full : Name) (salt hash : Nat)
  | client (user full : Name) (salt : Nat)
  | transient (user full : Name)
  deriving DecidableEq, Repr

/-- `ClientNetworkAccount`: the static ratchet is absent in the local-only account of CID 0. -/
structure Acct where
  cid : Cid
  auth : Auth
  static : Option Ratchet
  deriving DecidableEq, Repr

inductive Body
  | regStage0 (eph : Eph) (transient : Bool)
  | regStage1 (eph : Eph) (key : KeyId)
  | regStage2 (creds : Creds)
  | regSuccess
  | regFailure
  | syn (eph : Eph) (udp : Bool)
  | synAck (eph : Eph) (key : KeyId)
  | preStage0
  /-- `SUCCESS` or `FAILURE`, with the `TCP_ONLY` mark -/
  | preFinal (success tcpOnly : Bool)
  | beginConnect
  | halt
  | connStage0 (creds : Creds)
  | connSuccess
  | connFailure
  | connSuccessAck
  deriving DecidableEq, Repr

/-- The header is authenticated together with the payload of a sealed packet. -/
structure Pkt where
  sealed : Option Seal
  cid : Cid
  ticket : Nat
  body : Body
  deriving DecidableEq, Repr

/-- `protect_message_packet` -/
def Ratchet.protect (r : Ratchet) (cid ticket : Nat) (b : Body) : Pkt := ⟨some ⟨r.key, r.alice⟩, cid, ticket, b⟩

/-- `validate_message_packet_in_place_split` -/
def Ratchet.opens (r : Ratchet) (p : Pkt) : Bool := decide (p.sealed = some ⟨r.key, !r.alice⟩)

/-! ### Credentials -/

def Creds.user : Creds → Name
  | .enabled u _ _ => u
  | .disabled u => u

def Auth.user : Auth → Name
  | .server u _ _ _ => u
  | .client u _ _ => u
  | .transient u _ => u

def Auth.full : Auth → Name
  | .server _ f _ _ => f
  | .client _ f _ => f
  | .transient _ f => f

/-- `trim` -/
def trim (ws : Nat → Bool) (l : List Nat) : List Nat := ((l.dropWhile ws).reverse.dropWhile ws).reverse

/-- `"authless.client"` -/
def authlessName : Name := [0]

/-- `new_register`, 105-131 (`sanitize_and_prepare` with `do_password_trim = true`). `salt` stands for the random salt and
secret. -/
def newRegister (P : Prims) (full user : Name) (password : List Nat) (salt : Nat) : Creds :=
  .enabled (trim P.ws user) (trim P.ws full) (P.argon salt (trim P.ws full) (P.sha (trim P.ws password)))

/-- `into_auth_store`, 198-219, at the client: the settings of the hash are kept, the password is not. -/
def intoAuthStore (c : Creds) (salt : Nat) : Auth :=
  match c with
  | .disabled u => .transient u authlessName
  | .enabled u f _ => .client u f salt

/-- `generate_connect_credentials`, `client_account.rs`:284-306, and `new_connect`, `proposed_credentials.rs`:77-93 (no
trimming of the password). -/
def connectCreds (P : Prims) (a : Auth) (password : List Nat) : Creds :=
  match a with
  | .transient u _ => .disabled u
  | .client u f salt => .enabled (trim P.ws u) (trim P.ws f) (P.argon salt f (P.sha password))
  | .server u f salt _ => .enabled (trim P.ws u) (trim P.ws f) (P.argon salt u (P.sha password))

/-- `derive_server_container`, 238-282. -/
def deriveServer (P : Prims) (allowTransient : Bool) (c : Creds) (salt : Nat) : Option Auth :=
  match c with
  | .disabled u => if allowTransient then some (.transient u authlessName) else none
  | .enabled u f h => some (.server u f salt (P.argon salt u h))

/-- `ProposedCredentials::validate_credentials`, 285-322. -/
def validateArgon (P : Prims) (c : Creds) (a : Auth) : Bool :=
  match c with
  | .disabled _ => true
  | .enabled _ _ h =>
    match a with
    | .server u _ salt hash => decide (P.argon salt u h = hash)
    | _ => false

/-- `ClientNetworkAccount::validate_credentials`, `client_account.rs`:263-281. -/
def validate (P : Prims) (a : Auth) (c : Creds) : Bool :=
  if c.user ≠ a.user then false
  else match a with
    | .transient _ _ => true
    | a => validateArgon P c a

/-! ### Accounts of one node -/

structure Store where
  accts : List (Cid × Acct)
  allowTransient : Bool
  deriving DecidableEq, Repr

def Store.get (st : Store) (c : Cid) : Option Acct := (st.accts.find? (·.1 = c)).map (·.2)

/-- `save_cnac` (an upsert) -/
def Store.put (st : Store) (a : Acct) : Store := { st with accts := (a.cid, a) :: st.accts.filter (·.1 ≠ a.cid) }

/-- `delete_cnac_by_cid` -/
def Store.del (st : Store) (c : Cid) : Store := { st with accts := st.accts.filter (·.1 ≠ c) }

/-- `register_impersonal_hyperlan_client_network_account`, `account_manager.rs`:224-276; `none` is an error. The lock of
the registrations is held from the check to the save. -/
def registerImpersonal (P : Prims) (st : Store) (c : Creds) (r : Ratchet) (salt : Nat) : Option (Store × Acct) :=
  let cid := P.cidOf c.user
  if cid = 0 then none
  else match deriveServer P st.allowTransient c salt with
    | none => none
    | some auth =>
      if P.okNames auth.user auth.full then
        if (st.get (P.cidOf auth.user)).isSome then none
        else
          let a : Acct := ⟨cid, auth, some r⟩
          some (st.put a, a)
      else none

/-- `register_personal_hyperlan_server`, 280-305. -/
def registerPersonal (P : Prims) (st : Store) (c : Creds) (r : Ratchet) (salt : Nat) : Option (Store × Acct) :=
  let cid := P.cidOf c.user
  if cid = 0 then none
  else
    let a : Acct := ⟨cid, intoAuthStore c salt, some r⟩
    some (st.put a, a)

/-! ### Sessions -/

inductive St | needsRegister | socketJustOpened | needsConnect | connectionProcess | connected | disconnecting
  deriving DecidableEq, Repr

inductive RegStage | s0 | s1 | s2
  deriving DecidableEq, Repr

inductive PreStage | start | synAck | success
  deriving DecidableEq, Repr

inductive ConnStage | s0 | s1 | success
  deriving DecidableEq, Repr

/-- How a session came about: a connection was accepted, or the local node connects (with credentials for an account, or
transiently) or registers. -/
inductive Kind | server | login | transient | register
  deriving DecidableEq, Repr

/-- Continuations of handlers after an `.await`. -/
inductive Pend
  /-- `register_packet.rs`:107-168 -/
  | reg0 (cid : Cid) (eph : Eph) (transient : Bool) (ticket : Nat)
  /-- 203-239 -/
  | reg1 (own : Eph) (cid : Cid) (eph : Eph) (key : KeyId) (creds : Option Creds) (ticket : Nat)
  /-- 278-325 -/
  | reg2 (r : Ratchet) (creds : Creds) (cid ticket : Nat)
  /-- 382-428 -/
  | regOk (r : Ratchet) (creds : Creds) (passwordless : Bool)
  /-- `preconnect_packet.rs`:94-188 -/
  | synGo (p : Pkt)
  /-- 294-316 -/
  | punchInit (r : Ratchet) (ticket : Nat)
  /-- 382-411 -/
  | punchResp
  /-- `connect_packet.rs`:119-168 and 228-245 -/
  | conn0 (r : Ratchet) (a : Acct) (creds : Creds) (cid ticket : Nat)
  /-- 173-225 -/
  | connFin (r : Ratchet) (label ticket : Nat)
  deriving DecidableEq, Repr

structure Sess where
  node : Nat
  kind : Kind
  state : St
  cid : Option Cid := none
  ticket : Nat := 0
  /-- `connect_state.proposed_credentials` -/
  creds : Option Creds := none
  /-- the random salt and secret chosen with the credentials of a registration -/
  salt : Nat := 0
  transientMode : Option Bool := none
  regStage : RegStage := .s0
  /-- `register_state.constructor` -/
  regEph : Option (Eph × Cid) := none
  /-- `register_state.created_ratchet` -/
  regRatchet : Option Ratchet := none
  preStage : PreStage := .start
  /-- `pre_connect_state.constructor` -/
  preEph : Option (Eph × Cid) := none
  /-- `pre_connect_state.generated_ratchet` -/
  ratchet : Option Ratchet := none
  /-- `pre_connect_state.success` -/
  preOk : Bool := false
  udp : Bool := false
  cnac : Option Acct := none
  /-- `adjacent_nat_type` has been set -/
  natSet : Bool := false
  /-- `file_transfer_compatible` has been set -/
  ftcSet : Bool := false
  connStage : ConnStage := .s0
  /-- `channel_signal`: the CID the channel names -/
  signal : Option Cid := none
  /-- the CID of the channel handed to the kernel -/
  channel : Option Cid := none
  pend : List Pend := []
  over : Bool := false
  panicked : Bool := false
  deriving DecidableEq, Repr

/-- `EndSession`, errors, shutdown: the task of the session and its handlers end. -/
def Sess.stop (s : Sess) : Sess := { s with state := .disconnecting, over := true, pend := [] }

/-- A panic ends the task of the session. -/
def Sess.panic (s : Sess) : Sess := { s.stop with panicked := true }

def Sess.suspend (s : Sess) (k : Pend) : Sess := { s with pend := s.pend ++ [k] }

/-- `is_provisional`, `session.rs`:2494 -/
def Sess.provisional (s : Sess) : Bool := decide (s.state ≠ .connected) && decide (s.state ≠ .disconnecting)

/-- Answers from outside of the modelled code. -/
structure Oracle where
  ok : Bool
  quic : Bool
  salt : Nat
  deriving DecidableEq, Repr

/-- What a piece of a handler does: the new store of the node, the new session, packets sent, keys made (and for which
ephemeral key). -/
structure Res where
  st : Store
  s : Sess
  out : List Pkt := []
  nextKey : Nat
  nextEph : Nat
  made : List (Eph × KeyId) := []
  deriving DecidableEq, Repr

/-- `craft_halt`, `craft_failure`: not sealed. -/
def plain (cid ticket : Nat) (b : Body) : Pkt := ⟨none, cid, ticket, b⟩

/-- `begin_connect`, `session.rs`:737-804. `none`: the static ratchet is missing (a panic). -/
def beginConnect (s : Sess) (a : Acct) (nextEph : Nat) : Option (Sess × Pkt) :=
  match a.static with
  | none => none
  | some r =>
    some ({ s with state := .needsConnect, preStage := .synAck, preEph := some (.hon nextEph, a.cid) },
      r.protect r.cid s.ticket (.syn (.hon nextEph) s.udp))

/-! ### `process_register` -/

def recvRegister (st : Store) (s : Sess) (p : Pkt) (nk ne : Nat) : Res :=
  if s.state ≠ .needsRegister ∧ s.state ≠ .socketJustOpened ∧ s.state ≠ .needsConnect then ⟨st, s, [], nk, ne, []⟩
  else match p.body with
  | .regStage0 eph tr =>
    if tr && !st.allowTransient then ⟨st, s.stop, [plain p.cid p.ticket .regFailure], nk, ne, []⟩
    else ⟨st, s.suspend (.reg0 p.cid eph tr p.ticket), [], nk, ne, []⟩
  | .regStage1 eph key =>
    match s.regEph with
    | none => ⟨st, s, [], nk, ne, []⟩
    | some (own, cid) =>
      ⟨st, { s with regEph := none }.suspend (.reg1 own cid eph key s.creds p.ticket), [], nk, ne, []⟩
  | .regStage2 creds =>
    match s.regRatchet with
    | none => ⟨st, s, [], nk, ne, []⟩
    | some r =>
      if s.regStage = .s1 ∧ r.opens p then ⟨st, s.suspend (.reg2 r creds p.cid p.ticket), [], nk, ne, []⟩
      else ⟨st, s, [], nk, ne, []⟩
  | .regSuccess =>
    match s.regRatchet, s.creds, s.transientMode with
    | some r, some creds, some tr =>
      if s.regStage = .s2 ∧ r.opens p then ⟨st, s.suspend (.regOk r creds tr), [], nk, ne, []⟩
      else ⟨st, s, [], nk, ne, []⟩
    | _, _, _ => ⟨st, s, [], nk, ne, []⟩
  | .regFailure =>
    if s.regStage = .s0 then ⟨st, s, [], nk, ne, []⟩ else ⟨st, s.stop, [], nk, ne, []⟩
  | _ => ⟨st, s, [], nk, ne, []⟩

/-! ### `process_preconnect` -/

def recvPreconnect (st : Store) (s : Sess) (p : Pkt) (o : Oracle) (nk ne : Nat) : Res :=
  if !s.provisional then ⟨st, s, [], nk, ne, []⟩
  else match p.body with
  | .syn _ _ =>
    if o.ok then ⟨st, s.suspend (.synGo p), [], nk, ne, []⟩
    else ⟨st, s.stop, [plain p.cid p.ticket .halt], nk, ne, []⟩
  | .synAck eph key =>
    match s.cnac with
    | none => ⟨st, s, [], nk, ne, []⟩
    | some a =>
      if s.preStage ≠ .synAck then ⟨st, s, [], nk, ne, []⟩
      else match s.preEph with
      | none => ⟨st, s, [], nk, ne, []⟩
      | some (own, cid) =>
        match a.static with
        | none => ⟨st, s.panic, [], nk, ne, []⟩
        | some r0 =>
          if r0.opens p ∧ eph = own then
            if s.natSet then ⟨st, s.panic, [], nk, ne, []⟩
            else
              let r : Ratchet := ⟨key, true, cid⟩
              let s := { s with preEph := none, natSet := true, ratchet := some r }
              if !s.udp then
                ⟨st, { s with preStage := .success }, [r.protect r.cid p.ticket .preStage0], nk, ne, []⟩
              else if o.quic then
                ⟨st, { s with preStage := .success }, [r.protect r.cid p.ticket (.preFinal true false)], nk, ne, []⟩
              else ⟨st, s.suspend (.punchInit r p.ticket), [r.protect r.cid p.ticket .preStage0], nk, ne, []⟩
          else ⟨st, s.stop, [plain p.cid p.ticket .halt], nk, ne, []⟩
  | .preStage0 =>
    match s.ratchet with
    | none => ⟨st, s, [], nk, ne, []⟩
    | some r =>
      if s.preStage ≠ .synAck then ⟨st, s, [], nk, ne, []⟩
      else if r.opens p then
        if !s.udp then ⟨st, { s with preOk := true }, [r.protect r.cid p.ticket .beginConnect], nk, ne, []⟩
        else ⟨st, s.suspend .punchResp, [], nk, ne, []⟩
      else ⟨st, s.stop, [plain p.cid p.ticket .halt], nk, ne, []⟩
  | .preFinal success tcpOnly =>
    match s.ratchet, s.cnac with
    | some r, some _ =>
      if r.opens p then
        let s := { s with preOk := true, udp := s.udp && success }
        if tcpOnly then ⟨st, s, [r.protect r.cid p.ticket .beginConnect], nk, ne, []⟩
        else
          let s := if s.udp && o.quic then { s with preStage := .success } else s
          if success then ⟨st, s, [r.protect r.cid p.ticket .beginConnect], nk, ne, []⟩
          else ⟨st, s.stop, [], nk, ne, []⟩
      else ⟨st, s, [], nk, ne, []⟩
    | _, _ => ⟨st, s, [], nk, ne, []⟩
  | .beginConnect =>
    match s.ratchet with
    | none => ⟨st, s, [], nk, ne, []⟩
    | some r =>
      if s.preStage = .success ∧ r.opens p then
        match s.creds with
        | none => ⟨st, { s with preOk := true }, [], nk, ne, []⟩
        | some c =>
          ⟨st, { s with preOk := true, creds := none, connStage := .s1, state := .connectionProcess },
            [r.protect r.cid p.ticket (.connStage0 c)], nk, ne, []⟩
      else ⟨st, s, [], nk, ne, []⟩
  | .halt => ⟨st, s.stop, [], nk, ne, []⟩
  | _ => ⟨st, s, [], nk, ne, []⟩

/-! ### `process_connect` -/

def recvConnect (st : Store) (s : Sess) (p : Pkt) (o : Oracle) (nk ne : Nat) : Res :=
  if !s.provisional && decide (s.connStage ≠ .success) then ⟨st, s, [], nk, ne, []⟩
  else if !s.preOk then ⟨st, s, [], nk, ne, []⟩
  else match s.ratchet, s.cnac with
  | some r, some a =>
    if !r.opens p then ⟨st, s, [], nk, ne, []⟩
    else match p.body with
    | .connStage0 creds =>
      if s.connStage = .success then ⟨st, s, [], nk, ne, []⟩
      else ⟨st, s.suspend (.conn0 r a creds p.cid p.ticket), [], nk, ne, []⟩
    | .connFailure => ⟨st, { s with cid := none }.stop, [], nk, ne, []⟩
    | .connSuccess =>
      if s.ftcSet then ⟨st, s.panic, [], nk, ne, []⟩
      else
        let s := { s with ftcSet := true }
        if s.connStage = .s1 then
          let s := { s with connStage := .success, cid := some r.cid }
          if o.ok then
            ⟨st, { s with state := .connected, channel := some p.cid },
              [r.protect r.cid p.ticket .connSuccessAck], nk, ne, []⟩
          else ⟨st, s.stop, [], nk, ne, []⟩
        else ⟨st, s, [], nk, ne, []⟩
    | .connSuccessAck =>
      if s.kind = .server ∧ s.signal.isSome then ⟨st, { s with channel := s.signal, signal := none }, [], nk, ne, []⟩
      else ⟨st, s.stop, [], nk, ne, []⟩
    | _ => ⟨st, s, [], nk, ne, []⟩
  | _, _ => ⟨st, s, [], nk, ne, []⟩

/-- `process_raw_packet`, `raw_primary_packet.rs`:57-140: the primary command picks the handler. -/
def recv (st : Store) (s : Sess) (p : Pkt) (o : Oracle) (nk ne : Nat) : Res :=
  match p.body with
  | .regStage0 _ _ | .regStage1 _ _ | .regStage2 _ | .regSuccess | .regFailure => recvRegister st s p nk ne
  | .syn _ _ | .synAck _ _ | .preStage0 | .preFinal _ _ | .beginConnect | .halt => recvPreconnect st s p o nk ne
  | .connStage0 _ | .connSuccess | .connFailure | .connSuccessAck => recvConnect st s p o nk ne

/-! ### Continuations -/

def resume (P : Prims) (st : Store) (s : Sess) (k : Pend) (o : Oracle) (nk ne : Nat) : Res :=
  match k with
  | .reg0 cid eph tr ticket =>
    if s.regStage = .s0 then
      ⟨st, { s with transientMode := some tr, regRatchet := some ⟨.dev nk, false, cid⟩, regStage := .s1 },
        [plain cid ticket (.regStage1 eph (.dev nk))], nk + 1, ne, [(eph, .dev nk)]⟩
    else ⟨st, s, [], nk + 1, ne, [(eph, .dev nk)]⟩
  | .reg1 own cid eph key creds ticket =>
    if eph = own then
      match creds with
      | none => ⟨st, s, [], nk, ne, []⟩
      | some c =>
        let r : Ratchet := ⟨key, true, cid⟩
        ⟨st, { s with regRatchet := some r, regStage := .s2 }, [r.protect r.cid ticket (.regStage2 c)], nk, ne, []⟩
    else ⟨st, s.stop, [], nk, ne, []⟩
  | .reg2 r creds cid ticket =>
    match registerImpersonal P st creds r o.salt with
    | some (st, _) => ⟨st, s, [r.protect r.cid ticket .regSuccess], nk, ne, []⟩
    | none => ⟨st, s, [plain cid ticket .regFailure], nk, ne, []⟩
  | .regOk r creds passwordless =>
    match registerPersonal P st creds r s.salt with
    | none => ⟨st, s.stop, [], nk, ne, []⟩
    | some (st, a) =>
      if passwordless then
        match beginConnect s a ne with
        | none => ⟨st, s.panic, [], nk, ne, []⟩
        | some (s, p) => ⟨st, { s with cnac := some a }, [p], nk, ne + 1, []⟩
      else ⟨st, s.stop, [], nk, ne, []⟩
  | .synGo p =>
    match p.body with
    | .syn eph udp =>
      match st.get p.cid with
      | none => ⟨st, s.stop, [plain p.cid p.ticket .halt], nk, ne, []⟩
      | some a =>
        match a.static with
        | none => ⟨st, s.panic, [], nk, ne, []⟩
        | some r0 =>
          if r0.opens p then
            if s.natSet then ⟨st, s.panic, [], nk + 1, ne, [(eph, .sess nk)]⟩
            else
              ⟨st, { s with natSet := true, ticket := p.ticket, ratchet := some ⟨.sess nk, false, p.cid⟩,
                            preStage := .synAck, udp := udp, cnac := some a, cid := some p.cid },
                [r0.protect r0.cid p.ticket (.synAck eph (.sess nk))], nk + 1, ne, [(eph, .sess nk)]⟩
          else ⟨st, s.stop, [plain p.cid p.ticket .halt], nk, ne, []⟩
    | _ => ⟨st, s, [], nk, ne, []⟩
  | .punchInit r ticket =>
    ⟨st, { s with preStage := .success }, [r.protect r.cid ticket (.preFinal true (!o.ok))], nk, ne, []⟩
  | .punchResp => ⟨st, { s with preStage := .success, udp := s.udp && o.ok }, [], nk, ne, []⟩
  | .conn0 r a creds cid ticket =>
    if validate P a.auth creds then
      if s.ftcSet then ⟨st, s.panic, [], nk, ne, []⟩
      else
        let s := { s with ftcSet := true }
        if s.ticket ≠ ticket then ⟨st, s.stop, [], nk, ne, []⟩
        else
          let s := { s with connStage := .success }
          if o.ok then ⟨st, s.suspend (.connFin r cid ticket), [], nk, ne, []⟩
          else ⟨st, s.stop, [], nk, ne, []⟩
    else ⟨st, s, [r.protect r.cid ticket .connFailure], nk, ne, []⟩
  | .connFin r label ticket =>
    if o.ok then
      ⟨st, { s with cid := some r.cid, state := .connected, signal := some label },
        [r.protect r.cid ticket .connSuccess], nk, ne, []⟩
    else ⟨st, s.stop, [], nk, ne, []⟩

/-! ### Nodes, the network and the attacker -/

structure World where
  stores : List (Nat × Store)
  sess : List Sess
  nextKey : Nat
  nextEph : Nat
  /-- every packet sent by a node, with the session that sent it -/
  log : List (Nat × Pkt)
  /-- keys the attacker has -/
  leaked : List KeyId
  deriving DecidableEq, Repr

/-- `setup_local_only_account`, `account_manager.rs`:311: every node has an account of CID 0 without keys. A new node allows
transient connections, the default. -/
def Store.new : Store := ⟨[(0, ⟨0, .transient [] [], none⟩)], true⟩

def World.store (w : World) (n : Nat) : Store :=
  ((w.stores.find? (·.1 = n)).map (·.2)).getD Store.new

def World.setStore (w : World) (n : Nat) (st : Store) : World :=
  { w with stores := (n, st) :: w.stores.filter (·.1 ≠ n) }

/-- No accounts but the local ones, no sessions. -/
def World.init : World := ⟨[], [], 0, 0, [], []⟩

inductive Ev
  /-- a new connection at a listening node -/
  | accept (node : Nat)
  /-- `initiate_connection` with `AuthenticationRequest::Credentialed` -/
  | login (node : Nat) (cid : Cid) (password : List Nat) (ticket : Nat) (udp : Bool)
  /-- with `AuthenticationRequest::Passwordless` -/
  | transient (node : Nat) (user : Name) (ticket : Nat) (udp : Bool)
  /-- `RegisterToHypernode` -/
  | register (node : Nat) (full user : Name) (password : List Nat) (ticket salt : Nat)
  /-- a packet arrives -/
  | recv (sid : Nat) (p : Pkt) (o : Oracle)
  /-- a handler goes on after an `.await` -/
  | resume (sid i : Nat) (o : Oracle)
  /-- connection lost, time-outs, shutdown -/
  | stop (sid : Nat)
  /-- an account is removed -/
  | remove (node : Nat) (cid : Cid)
  /-- a server is configured not to allow transient connections -/
  | forbidTransient (node : Nat)
  /-- the keys of a registration are stolen from a node -/
  | steal (n : Nat)
  deriving DecidableEq, Repr

/-- Put the result of a handler of session `sid` into the world. Keys made for an ephemeral key of the attacker are known
to the attacker. -/
def World.apply (w : World) (sid node : Nat) (r : Res) : World :=
  { (w.setStore node r.st) with
    sess := w.sess.set sid r.s
    nextKey := r.nextKey, nextEph := r.nextEph
    log := w.log ++ r.out.map (fun p => (sid, p))
    leaked := w.leaked ++ (r.made.filterMap fun m => match m.1 with | .atk _ => some m.2 | .hon _ => none) }

/-- `CitadelSession::new` (`session.rs`:347-517) and `handle_zero_state` (647-735). -/
def World.step (P : Prims) (w : World) : Ev → World
  | .accept node => { w with sess := w.sess ++ [{ node := node, kind := .server, state := .socketJustOpened }] }
  | .login node cid password ticket udp =>
    match (w.store node).get cid with
    | none => w
    | some a =>
      let s : Sess := { node := node, kind := .login, state := .needsConnect, cid := some a.cid, ticket := ticket,
                        creds := some (connectCreds P a.auth password),
                        transientMode := some (match connectCreds P a.auth password with | .disabled _ => true | _ => false)
                        udp := udp, cnac := some a }
      match beginConnect s a w.nextEph with
      | none => w
      | some (s, p) =>
        { w with sess := w.sess ++ [s], nextEph := w.nextEph + 1, log := w.log ++ [(w.sess.length, p)] }
  | .transient node user ticket udp =>
    let s : Sess := { node := node, kind := .transient, state := .needsRegister, ticket := ticket,
                      creds := some (.disabled user), transientMode := some true, udp := udp,
                      regEph := some (.hon w.nextEph, P.cidOf user) }
    { w with sess := w.sess ++ [s], nextEph := w.nextEph + 1,
             log := w.log ++ [(w.sess.length, plain (P.cidOf user) ticket (.regStage0 (.hon w.nextEph) true))] }
  | .register node full user password ticket salt =>
    let c := newRegister P full user password salt
    let s : Sess := { node := node, kind := .register, state := .needsRegister, ticket := ticket, creds := some c,
                      salt := salt, transientMode := some false, regEph := some (.hon w.nextEph, P.cidOf c.user) }
    { w with sess := w.sess ++ [s], nextEph := w.nextEph + 1,
             log := w.log ++ [(w.sess.length, plain (P.cidOf c.user) ticket (.regStage0 (.hon w.nextEph) false))] }
  | .recv sid p o =>
    match w.sess[sid]? with
    | none => w
    | some s => if s.over then w else w.apply sid s.node (recv (w.store s.node) s p o w.nextKey w.nextEph)
  | .resume sid i o =>
    match w.sess[sid]? with
    | none => w
    | some s =>
      match s.pend[i]? with
      | none => w
      | some k => if s.over then w else
        w.apply sid s.node (resume P (w.store s.node) { s with pend := s.pend.eraseIdx i } k o w.nextKey w.nextEph)
  | .stop sid =>
    match w.sess[sid]? with
    | none => w
    | some s => { w with sess := w.sess.set sid s.stop }
  | .remove node cid => w.setStore node ((w.store node).del cid)
  | .forbidTransient node => w.setStore node { w.store node with allowTransient := false }
  | .steal n => { w with leaked := .dev n :: w.leaked }

/-- What the attacker can open and seal. -/
def World.Known (w : World) : KeyId → Prop
  | .atk _ => True
  | k => k ∈ w.leaked

/-- The key encapsulation in a packet. -/
def Body.encap : Body → Option (Eph × KeyId)
  | .regStage1 e k => some (e, k)
  | .synAck e k => some (e, k)
  | _ => none

/-- The ephemeral key a packet offers. -/
def Body.eph : Body → Option Eph
  | .regStage0 e _ => some e
  | .syn e _ => some e
  | _ => none

/-- What the attacker, who is the network, can deliver: a packet that was sent, or a packet it makes itself - not sealed or
sealed with a key it has; a key encapsulation it makes is copied or holds a key it has; ephemeral keys of nodes it offers
exist. -/
def World.CanSend (w : World) (p : Pkt) : Prop :=
  (∃ sid, (sid, p) ∈ w.log) ∨
  ((∀ s, p.sealed = some s → w.Known s.key) ∧
   (∀ e k, p.body.encap = some (e, k) → w.Known k ∨ ∃ sid q, (sid, q) ∈ w.log ∧ q.body.encap = some (e, k)) ∧
   ∀ n, p.body.eph = some (.hon n) → n < w.nextEph)

/-- Only existing keys can be stolen. -/
def World.Allowed (w : World) : Ev → Prop
  | .recv _ p _ => w.CanSend p
  | .steal n => n < w.nextKey
  | _ => True

/-- Worlds that can come about. -/
inductive Run (P : Prims) : List Ev → World → Prop
  | init : Run P [] World.init
  | step {evs w ev} : Run P evs w → w.Allowed ev → Run P (evs ++ [ev]) (w.step P ev)

end Verif.Login

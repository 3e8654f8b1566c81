import Verif.Packet.Model
import Mathlib.Logic.Function.Basic
/-
Model of the layered protection of message packets.
Source: /repo/citadel_crypt/src/ratchets/mod.rs lines 90-194, with `get_message_pqc_and_entropy_bank_at_layer` of
/repo/citadel_crypt/src/ratchets/stacked/ratchet.rs lines 100-111 (and mono/ratchet.rs lines 102-113, where the count is 1).

One layer is the packet protection of `Verif.Packet`. Not modelled: the contents of the caller's buffer after a layer failed
(the caller discards it), and failure of encryption.
-/
namespace Verif.Layered
open Verif Verif.Packet

/-- One layer of a ratchet, one direction: AEAD key and nonce derivation. -/
structure Layer where
  A : Aead
  nonceOf : Nat → A.Nonce

/-- The message layers of a ratchet: layer `n` exists for `n < count`. -/
structure Ratchet where
  count : Nat
  layer : Nat → Layer

/-- Counters of every layer on the sending and on the receiving endpoint. -/
abbrev SendState := Nat → Sender
abbrev RecvState := Nat → Receiver

inductive Err where
  | noMessageRatchets
  | levelOutOfRange
  | outOfBounds
  | layer (e : ValidateError)
deriving DecidableEq, Repr

/-- `verify_level`, lines 170-194: a level is the `u8` of `SecurityLevel::value`; `count - 1` is cut to a `u8`. -/
def verifyLevel (R : Ratchet) (level : Option Nat) : Except Err Nat :=
  if R.count = 0 then .error .noMessageRatchets
  else if level.getD 0 > (R.count - 1) % 256 then .error .levelOutOfRange
  else .ok (level.getD 0)

/-- The loop of `protect_message_packet` over layer indices: sender state, packet, result. -/
def protectLoop (R : Ratchet) (headerLen : Nat) : List Nat → SendState → Bytes → SendState × Bytes × Except Err Unit
  | [], s, p => (s, p, .ok ())
  | n :: ns, s, p =>
    if n < R.count then
      let r := protect (R.layer n).A (R.layer n).nonceOf (s n) headerLen p
      protectLoop R headerLen ns (Function.update s n r.1) r.2.2.2.2
    else (s, p, .error .outOfBounds)

/-- `protect_message_packet`, lines 90-104. -/
def protectMessage (R : Ratchet) (s : SendState) (level : Option Nat) (headerLen : Nat) (packet : Bytes) :
    SendState × Bytes × Except Err Unit :=
  match verifyLevel R level with
  | .error e => (s, packet, .error e)
  | .ok idx => protectLoop R headerLen (List.range (idx + 1)) s packet

/-- The loop of `validate_message_packet`. -/
def validateLoop (R : Ratchet) (header : Bytes) : List Nat → RecvState → Bytes → RecvState × Bytes × Except Err Unit
  | [], s, p => (s, p, .ok ())
  | n :: ns, s, p =>
    if n < R.count then
      match validate (R.layer n).A (R.layer n).nonceOf (s n) header p with
      | (r, .ok (_, p')) => validateLoop R header ns (Function.update s n r) p'
      | (r, .error e) => (Function.update s n r, p, .error (.layer e))
    else (s, p, .error .outOfBounds)

/-- `validate_message_packet`, lines 107-120, and `validate_message_packet_in_place_split`, lines 197-210. -/
def validateMessage (R : Ratchet) (s : RecvState) (level : Option Nat) (header payload : Bytes) :
    RecvState × Bytes × Except Err Unit :=
  match verifyLevel R level with
  | .error e => (s, payload, .error e)
  | .ok idx => validateLoop R header (List.range (idx + 1)).reverse s payload

/-- A message handed to the sender. -/
structure Msg where
  level : Option Nat
  headerLen : Nat
  packet : Bytes
deriving DecidableEq, Repr, Inhabited

/-- Protect messages one after the other: the packets as they go on the wire. -/
def sendAll (R : Ratchet) : SendState → List Msg → List Bytes
  | _, [] => []
  | s, m :: ms =>
    let r := protectMessage R s m.level m.headerLen m.packet
    r.2.1 :: sendAll R r.1 ms

/-- Validate packets (level, header, payload) one after the other: what the caller gets for each. -/
def deliverAll (R : Ratchet) : RecvState → List (Option Nat × Bytes × Bytes) → List (Except Err Bytes)
  | _, [] => []
  | s, d :: ds =>
    let r := validateMessage R s d.1 d.2.1 d.2.2
    (match r.2.2 with | .ok () => .ok r.2.1 | .error e => .error e) :: deliverAll R r.1 ds

/-- Fresh endpoints; the transient counter of layer `n` starts at any `u64`. -/
def freshSend (base : Nat → Nat) : SendState := fun n => { ara := Replay.init, transient := base n % 2 ^ 64 }
def freshRecv : RecvState := fun _ => { ara := Replay.init }

/-! ### Local encryption

`Ratchet::local_encrypt` and `local_decrypt` (lines 132-165) around `EntropyBank::local_encrypt`/`local_decrypt`
(entropy_bank.rs lines 219-280): no associated data, no packet id. `L n` is the AEAD that layer `n` uses for local
encryption. -/

/-- `local_encrypt`: the transient counters `t` advance once per layer. -/
def localEncLoop (R : Ratchet) : List Nat → (Nat → Nat) → Bytes → (Nat → Nat) × Except Err Bytes
  | [], t, d => (t, .ok d)
  | n :: ns, t, d =>
    if n < R.count then
      localEncLoop R ns (Function.update t n ((t n + 1) % 2 ^ 64))
        ((R.layer n).A.enc ((R.layer n).nonceOf (t n)) [] d ++ toBE 8 (t n))
    else (t, .error .outOfBounds)

def localEncrypt (R : Ratchet) (t : Nat → Nat) (level : Nat) (contents : Bytes) : (Nat → Nat) × Except Err Bytes :=
  match verifyLevel R (some level) with
  | .error e => (t, .error e)
  | .ok idx => localEncLoop R (List.range (idx + 1)) t contents

def localDecLoop (R : Ratchet) : List Nat → Bytes → Except Err Bytes
  | [], d => .ok d
  | n :: ns, d =>
    if n < R.count then
      match splitTransient d with
      | none => .error (.layer .badTransientIdSize)
      | some (tid, ct) =>
        match (R.layer n).A.dec ((R.layer n).nonceOf tid) [] ct with
        | none => .error (.layer .decryptionFailure)
        | some d' => localDecLoop R ns d'
    else .error .outOfBounds

/-- `local_decrypt`: empty contents are returned as they are, before the level is checked. -/
def localDecrypt (R : Ratchet) (level : Nat) (contents : Bytes) : Except Err Bytes :=
  if contents = [] then .ok []
  else
    match verifyLevel R (some level) with
    | .error e => .error e
    | .ok idx => localDecLoop R (List.range (idx + 1)).reverse contents

end Verif.Layered

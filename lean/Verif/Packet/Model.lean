import Verif.Replay.Model
import Verif.Common.Bytes
/-
Model of one direction of packet protection between two endpoints holding the same ratchet layer.
Sources: /repo/citadel_crypt/src/ratchets/entropy_bank.rs lines 82-98, 128-157, 186-217, 356-370 and
/repo/citadel_pqcrypto/src/lib.rs lines 713-782.

The AEAD (one directional key) is a parameter: `enc`/`dec` on nonce, associated data and byte strings.
The nonce derivation (BLAKE3 keyed with the shared entropy) is a parameter: any function of the transient id.
Not modelled: failure of encryption (buffers that cannot grow), missing keys, and the contents of the caller's buffer
after a failed validation (the caller discards it).
-/
namespace Verif.Packet
open Verif

/-- An AEAD under one fixed key. -/
structure Aead where
  Nonce : Type
  enc : Nonce → Bytes → Bytes → Bytes
  dec : Nonce → Bytes → Bytes → Option Bytes

/-- Decryption undoes encryption: the only assumption on the AEAD besides unforgeability. -/
def Aead.Correct (A : Aead) : Prop := ∀ n ad pt, A.dec n ad (A.enc n ad pt) = some pt

/-- Sending endpoint: the anti-replay container's outgoing counter and the `TransientNonceCounter`
(entropy_bank.rs lines 356-370, `fetch_add` wraps). -/
structure Sender where
  ara : Replay.Container
  transient : Nat

/-- Receiving endpoint. -/
structure Receiver where
  ara : Replay.Container

/-- `EntropyBank::protect_packet` (lines 128-139, 186-196) around
`PostQuantumContainer::protect_packet_in_place` (lib.rs lines 713-738).
Result: new sender, the packet id and nonce used, the ciphertext, the bytes on the wire
(`header ++ ciphertext ++ transient id`). -/
def protect (A : Aead) (nonceOf : Nat → A.Nonce) (s : Sender) (headerLen : Nat) (fullPacket : Bytes) :
    Sender × Nat × A.Nonce × Bytes × Bytes :=
  let tid := s.transient
  let nonce := nonceOf tid
  let header := fullPacket.take headerLen
  let payload := fullPacket.drop headerLen
  let r := Replay.getNextPid s.ara
  let ct := A.enc nonce header (payload ++ toBE 8 r.2)
  ({ ara := r.1, transient := (s.transient + 1) % 2 ^ 64 }, r.2, nonce, ct, header ++ ct ++ toBE 8 tid)

/-- The trailing transient id is split off first: `wrap_with_unique_nonce_dex`, entropy_bank.rs lines 198-217. -/
def splitTransient (buf : Bytes) : Option (Nat × Bytes) :=
  if buf.length < 8 then none
  else some (fromBE (buf.drop (buf.length - 8)), buf.take (buf.length - 8))

inductive ValidateError where
  | badTransientIdSize
  | decryptionFailure
  | antiReplayInvalid
  | antiReplayBadLength
deriving DecidableEq, Repr

/-- `EntropyBank::validate_packet_in_place_split` (lines 142-153) around
`PostQuantumContainer::validate_packet_in_place` (lib.rs lines 741-782). On success: the packet id and the
payload handed to the caller. -/
def validate (A : Aead) (nonceOf : Nat → A.Nonce) (r : Receiver) (header payload : Bytes) :
    Receiver × Except ValidateError (Nat × Bytes) :=
  match splitTransient payload with
  | none => (r, .error .badTransientIdSize)
  | some (tid, ct) =>
    match A.dec (nonceOf tid) header ct with
    | none => (r, .error .decryptionFailure)
    | some pt =>
      if pt.length < 8 then (r, .error .antiReplayBadLength)
      else
        let start := pt.length - 8
        let pid := fromBE (pt.drop start)
        let q := Replay.onPidReceived r.ara pid
        if q.2 then ({ ara := q.1 }, .ok (pid, pt.take start))
        else ({ ara := q.1 }, .error .antiReplayInvalid)

/-- Both endpoints. -/
structure State where
  sender : Sender
  receiver : Receiver

/-- Fresh endpoints; the transient counter starts at an arbitrary base. -/
def init (base : Nat) : State :=
  { sender := { ara := Replay.init, transient := base }, receiver := { ara := Replay.init } }

/-- What can happen: the sender protects a packet; the network hands the receiver arbitrary bytes (genuine, replayed,
reordered or made up); the counters of either endpoint are reset (`reset_counters`, lib.rs line 562). -/
inductive Op where
  | send (headerLen : Nat) (fullPacket : Bytes)
  | deliver (header payload : Bytes)
  | resetReceiver
  | resetSender

/-- What is observed. `sent` records header, payload, packet id and the AEAD query made. -/
inductive Event (N : Type) where
  | sent (header payload : Bytes) (pid : Nat) (nonce : N) (ct : Bytes)
  | accepted (header payload : Bytes) (pid : Nat)
  | rejected (header payload : Bytes) (e : ValidateError)
  | reset
  | senderReset

/-- One step. -/
def step (A : Aead) (nonceOf : Nat → A.Nonce) (s : State) : Op → State × Event A.Nonce
  | .send hl full =>
    let r := protect A nonceOf s.sender hl full
    ({ s with sender := r.1 }, .sent (full.take hl) (full.drop hl) r.2.1 r.2.2.1 r.2.2.2.1)
  | .deliver h b =>
    match validate A nonceOf s.receiver h b with
    | (r, .ok (pid, m)) => ({ s with receiver := r }, .accepted h m pid)
    | (r, .error e) => ({ s with receiver := r }, .rejected h b e)
  | .resetReceiver => ({ s with receiver := { ara := Replay.reset s.receiver.ara } }, .reset)
  | .resetSender => ({ s with sender := { s.sender with ara := Replay.reset s.sender.ara } }, .senderReset)

/-- A whole run with its events, oldest first. -/
def run (A : Aead) (nonceOf : Nat → A.Nonce) (s : State) : List Op → State × List (Event A.Nonce)
  | [] => (s, [])
  | op :: ops =>
    let r := step A nonceOf s op
    let r' := run A nonceOf r.1 ops
    (r'.1, r.2 :: r'.2)

end Verif.Packet

import Verif.Packet.Model

/-! Vocabulary for C04 and C50: statements about traces and the unforgeability assumption. -/
namespace Verif.Packet
open Verif

/-- The (header, payload) pairs protected by the sender, in order. -/
def sentMsgs {N : Type} : List (Event N) → List (Bytes × Bytes)
  | [] => []
  | .sent h m _ _ _ :: es => (h, m) :: sentMsgs es
  | _ :: es => sentMsgs es

/-- The (header, payload) pairs the receiver accepted, in order. -/
def acceptedMsgs {N : Type} : List (Event N) → List (Bytes × Bytes)
  | [] => []
  | .accepted h m _ :: es => (h, m) :: acceptedMsgs es
  | _ :: es => acceptedMsgs es

/-- **Assumption on the run (ciphertext integrity).** Whenever bytes are delivered that the AEAD opens, the very same
nonce, header and ciphertext came out of an earlier encryption by the sender. A run violating this is a break of the
AEAD's INT-CTXT security. -/
def Unforged (A : Aead) (nonceOf : Nat → A.Nonce) (s : State) (ops : List Op) : Prop :=
  ∀ before header payload after, ops = before ++ Op.deliver header payload :: after →
    ∀ tid ct, splitTransient payload = some (tid, ct) →
      (A.dec (nonceOf tid) header ct).isSome →
      ∃ m pid, Event.sent header m pid (nonceOf tid) ct ∈ (run A nonceOf s before).2

/-- Number of times the receiver's counters are reset in the run. -/
def resetCount : List Op → Nat
  | [] => 0
  | .resetReceiver :: ops => resetCount ops + 1
  | _ :: ops => resetCount ops

/-- No endpoint's counters are reset in the run. -/
def NoReset (ops : List Op) : Prop := Op.resetReceiver ∉ ops ∧ Op.resetSender ∉ ops

/-- Number of packets the sender protects in the run. -/
def sendCount : List Op → Nat
  | [] => 0
  | .send _ _ :: ops => sendCount ops + 1
  | _ :: ops => sendCount ops

/-- The nonces used for encryption, in order. -/
def nonces {N : Type} : List (Event N) → List N
  | [] => []
  | .sent _ _ _ n _ :: es => n :: nonces es
  | _ :: es => nonces es

end Verif.Packet

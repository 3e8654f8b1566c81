import Verif.Roster.Model
/-! Vocabulary for the statements about message groups. -/
namespace Verif.Roster
open Verif

/-- The client puts its own cid into the packet header. -/
def HonestHeader : Op → Prop
  | .signal c h _ => h = c
  | _ => True

instance : DecidablePred HonestHeader := fun op => by cases op <;> unfold HonestHeader <;> infer_instance

/-- The session of the owner of `key` sent an invitation to `p`. -/
def Invites (key : Key) (p : Nat) : Op → Prop
  | .signal c _ (.create mgid peers _) => (c, mgid) = key ∧ p ∈ peers
  | .signal c _ (.add k invited) => k = key ∧ c = key.1 ∧ p ∈ invited
  | _ => False

/-- The session of the owner of `key` invited `p` or accepted it. -/
def Consents (key : Key) (p : Nat) (op : Op) : Prop :=
  Invites key p op ∨ ∃ h, op = .signal key.1 h (.accept p key)

/-- Some operation with property `P` happened in the history `ops`, and from then on the group `key` existed without
interruption (so it is still the same group). -/
def Since (ops : List Op) (key : Key) (P : Op → Prop) : Prop :=
  ∃ pre op post, ops = pre ++ op :: post ∧ P op ∧
    ∀ p1 p2, post = p1 ++ p2 → (after (pre ++ op :: p1)).groups.contains key = true

/-- Memberships are accepted only by the group's owner, or by the invited peers. -/
def ProperAccepts (ops : List Op) : Prop :=
  ∀ pre c h target key post, ops = pre ++ .signal c h (.accept target key) :: post →
    c = key.1 ∨ Since pre key (Invites key target)

/-- A step that keeps the roster and the key holders in line: honest headers, key packages only from members without
a leaf, nobody leaves by itself and no group is ended by a signal. -/
def KeyDisciplined (s : Server) : Op → Prop
  | .signal c h (.keyPackage key joiner) => h = c ∧ joiner ∈ members s key ∧ joiner ∉ keyHolders s key
  | .signal _ _ (.leave _) => False
  | .signal _ _ (.endGroup _) => False
  | .signal c h _ => h = c
  | _ => True

/-- All steps of a history are disciplined. -/
def AllDisciplined (s : Server) : List Op → Prop
  | [] => True
  | op :: ops => KeyDisciplined s op ∧ AllDisciplined (step s op).1 ops

end Verif.Roster

import Verif.SecPacket.Model

/-! What a partitioned buffer is meant to be: a list of separate byte strings. -/
namespace Verif.SecPacket

inductive BOp where
  | reserve (idx len : Nat)
  | write (idx : Nat) (data : Bytes)
deriving DecidableEq, Repr

/-- The buffer after a sequence of calls; a call that returns an error leaves it as it is, a panic ends the run. -/
def runBuf (checks : Bool) (p : PBuf) : List BOp → Res PBuf
  | [] => .ok p
  | .reserve i l :: ops =>
    match reserve p i l with
    | .ok q => runBuf checks q ops
    | .err => runBuf checks p ops
    | .panic => .panic
  | .write i d :: ops =>
    match writeWindow checks p i (copyFrom d) with
    | .ok q => runBuf checks q ops
    | .err => runBuf checks p ops
    | .panic => .panic

/-- The ideal buffer: separate partitions, filled in order, each written on its own. -/
def ideal (parts : List Bytes) : List BOp → List Bytes
  | [] => parts
  | .reserve i l :: ops =>
    if i < parts.length ∧ (∀ x ∈ parts.take i, x ≠ []) ∧ (∀ x ∈ parts.drop i, x = []) then
      ideal (parts.set i (List.replicate l 0)) ops
    else ideal parts ops
  | .write i d :: ops => if i < parts.length then ideal (parts.set i d) ops else ideal parts ops

end Verif.SecPacket

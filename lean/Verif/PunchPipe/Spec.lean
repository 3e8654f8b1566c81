import Verif.PunchPipe.Model
/-
What the properties of the pipes speak of.
-/
namespace Verif.PunchPipe

def start : Node := {}

/-- The payloads of the packets of a connection that came in, in order: `k` is the cid of the peer, 0 for the session itself. -/
def arrivals (k conn : Nat) (as : List Act) : List Nat :=
  as.filterMap fun a =>
    match a with
    | .packet p => if p.conn = conn ∧ (if k = 0 then p.dst = 0 else p.dst ≠ 0 ∧ p.src = k) then some p.body else none
    | _ => none

/-- An action that leaves the connection with `k` and its pipe `n` alone, and does not let go of the first ratchet; packets
of the peer are under the first ratchet, as `hr` is for good. -/
def Leaves (k n : Nat) : Act → Prop
  | .create j _ => j ≠ k
  | .gone j _ => j ≠ k
  | .rekey j old => j ≠ k ∨ old = 0
  | .drop m => m ≠ n
  | .packet p => p.dst ≠ 0 → p.src = k → p.ver = 0
  | _ => True

end Verif.PunchPipe

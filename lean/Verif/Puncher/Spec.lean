import Verif.Puncher.Model
/-!
What the punchers are about: who sent what to whom, and which networks are honest.
-/
namespace Verif.Puncher

/-- Puncher `i` has sent its `Syn` to this address. -/
def SynTo (role : Nat → Bool) (s : St) (i : Nat) (a : Addr) : Prop := ⟨i, a, .sealed (.syn i (role i) a)⟩ ∈ s.hist

/-- Puncher `j` has answered a `Syn` that puncher `i` had sent to the address `a`. -/
def AckTo (role : Nat → Bool) (s : St) (j i : Nat) (a : Addr) : Prop :=
  ∃ t, ⟨j, t, .sealed (.synAck j (role j) a i)⟩ ∈ s.hist

/-- Puncher `i` has a result, with puncher `j`. -/
def Done (s : St) (i j : Nat) : Prop := ∃ a b, (s.punch i).recv = .done a b j

/-- What arrives says truly where it comes from: what puncher `j` sent arrives at `i` from the address `seen j i` (where the NAT of
`j` shows it to `i`). -/
def Honest (seen : Nat → Nat → Addr) (s : St) : Act → Prop
  | .deliver i n src _ => ∀ d, s.hist[n]? = some d → src = seen d.src i
  | _ => True

/-- A run in which every action has a property of the state it is taken in. -/
def Along (role : Nat → Bool) (P : St → Act → Prop) : St → List Act → Prop
  | _, [] => True
  | s, a :: as => P s a ∧ ∀ s', step role s a = some s' → Along role P s' as

/-- No send of puncher `i` is refused because of the kind of its address. -/
def NoInvalid (i : Nat) : Act → Prop
  | .send i' _ _ o => i' = i → o ≠ .invalid
  | _ => True

/-- How often puncher `i` has sent its `Syn` to this address. -/
def syns (role : Nat → Bool) (s : St) (i : Nat) (a : Addr) : Nat := s.hist.count ⟨i, a, .sealed (.syn i (role i) a)⟩

/-- Every send of puncher `i` works. -/
def AllSent (i : Nat) : Act → Prop
  | .send i' _ _ o => i' = i → o = .okay
  | _ => True

end Verif.Puncher

import Verif.Serverless.Model

/-
What the function promises: two browsers with the same token get one data channel, one of them as the server.
-/
namespace Verif.Serverless

/-- The hash an attempt took for that of its peer. -/
def found? : Phase → Option (List Nat)
  | .idle | .greeted => none
  | .found h | .offered h | .applied h _ _ | .answering h _ _ | .waiting h _ _ | .opened h _ _ | .done h _ _ => some h

/-- The role in which an attempt that has a data channel holds it, and the attempt at the other end. -/
def link? : Phase → Option (Bool × Nat)
  | .opened _ srv p | .done _ srv p => some (srv, p)
  | _ => none

/-- The attempt makes the offer, or waits for one. -/
def side? (H : Nat → List Nat) (s : St) (i : Nat) : Option Bool :=
  (found? (s.phase i)).map (determineIsServer (H i))

/-- The call of the attempt returned a connection. -/
def isDone : Phase → Bool
  | .done _ _ _ => true
  | _ => false

/-- Steps that only these attempts make. -/
def Only (who : List Nat) (as : List Act) : Prop := ∀ a ∈ as, a.who ∈ who

/-- Nobody gives up, and no polling loop comes to its deadline. -/
def Patient (as : List Act) : Prop := ∀ a ∈ as, (∀ i, a ≠ .timeout i) ∧ (∀ i, a ≠ .leave i)

/-- No data channel shows up before the reply to the request that published the answer. -/
def Prompt (H : Nat → List Nat) : St → List Act → Prop
  | _, [] => True
  | s, a :: as =>
    (∀ i, a = .event i → ∀ h o, s.phase i ≠ .answering h o false) ∧
      match step H s a with
      | some t => Prompt H t as
      | none => True

end Verif.Serverless

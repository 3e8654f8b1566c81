import Verif.TreeKem.Model
/-
Executions of a group: every member processes every commit, in order.
-/
namespace Verif.TreeKem

open Verif.TreeMath

variable {M : Type}

/-- The state of each member, by leaf index. -/
abbrev World (M : Type) := Nat → Option (GroupState M)

/-- What a member does. `s` is the fresh leaf secret, `rnd` and `rw` encapsulation randomness; `js` is the joiner's leaf
secret behind the key package `leaf`. -/
inductive Op (M : Type)
  | update (i : Nat) (s : M) (rnd : Nat → Nat → Nat)
  | add (i : Nat) (leaf : LeafNode M) (js s : M) (rnd : Nat → Nat → Nat) (rw : Nat)
  | remove (i j : Nat) (s : M) (rnd : Nat → Nat → Nat)
  | send (i : Nat) (m : M)

/-- What goes over the wire. -/
inductive Sent (M : Type)
  | nothing
  | commit (c : Commit M)
  | welcome (c : Commit M) (w : Welcome M)
  | app (a : AppMsg M)

variable (P : Prims M)

/-- Everyone but `i` processes the commit; a member that fails keeps whatever state the failure leaves it in. -/
def deliver (w : World M) (i : Nat) (gi : GroupState M) (c : Commit M) : World M := fun j =>
  if j = i then some gi else (w j).map fun h => (processCommit P h c).1

/-- One step of the group. -/
def step (w : World M) : Op M → World M × Sent M
  | .update i s rnd =>
    match w i with
    | none => (w, .nothing)
    | some g =>
      match commitUpdate P g s rnd with
      | (g', .ok c) => (deliver P w i g' c, .commit c)
      | (g', _) => (fun j => if j = i then some g' else w j, .nothing)
  | .add i leaf js s rnd rw =>
    match w i with
    | none => (w, .nothing)
    | some g =>
      match addMember P g leaf s rnd rw with
      | (g', .ok (c, wel)) =>
        (fun j => if j = wel.joiner then
            match joinFromWelcome P wel js with
            | .ok h => some h
            | _ => none
          else deliver P w i g' c j, .welcome c wel)
      | (g', _) => (fun j => if j = i then some g' else w j, .nothing)
  | .remove i j s rnd =>
    match w i with
    | none => (w, .nothing)
    | some g =>
      match removeMember P g j s rnd with
      | (g', .ok c) => (fun k => if k = j then none else deliver P w i g' c k, .commit c)
      | (g', _) => (fun k => if k = i then some g' else w k, .nothing)
  | .send i m =>
    match w i with
    | none => (w, .nothing)
    | some g => let r := encryptMessage P g m; (fun j => if j = i then some r.1 else w j, .app r.2)

/-- The operation makes sense: the actor is a member, does not remove itself, and the joiner's key package is well
formed; the leaf count fits its `u32`. -/
def Valid (w : World M) : Op M → Prop
  | .update i _ _ => (w i).isSome
  | .add i leaf js _ _ _ => leaf.pk = P.pub js ∧ ∃ g ∈ w i, numLeaves g.tree < 2 ^ 31
  | .remove i j _ _ => (w i).isSome ∧ (w j).isSome ∧ i ≠ j
  | .send i _ => (w i).isSome

/-- The founder alone. -/
def founding (founder : LeafNode M) (s : M) : World M := fun j => if j = 0 then some (create P founder s) else none

/-- Worlds that a group gets to. -/
inductive Reach : World M → Prop
  | create (founder : LeafNode M) (s : M) : founder.pk = P.pub s → Reach (founding P founder s)
  | step {w : World M} (op : Op M) : Reach w → Valid P w op → Reach (step P w op).1

/-- Nothing went wrong in the operation: the actor produced its commit, everyone else processed it, the joiner joined. -/
def Fine (w : World M) : Op M → Prop
  | .update i s rnd => ∃ g c, w i = some g ∧ (commitUpdate P g s rnd).2 = .ok c ∧
      ∀ j h, j ≠ i → w j = some h → (processCommit P h c).2 = .ok ()
  | .add i leaf js s rnd rw => ∃ g c wel, w i = some g ∧ (addMember P g leaf s rnd rw).2 = .ok (c, wel) ∧
      (∀ j h, j ≠ i → w j = some h → (processCommit P h c).2 = .ok ()) ∧
      w wel.joiner = none ∧ ∃ h, joinFromWelcome P wel js = .ok h
  | .remove i j s rnd => ∃ g c, w i = some g ∧ (removeMember P g j s rnd).2 = .ok c ∧
      ∀ k h, k ≠ i → k ≠ j → w k = some h → (processCommit P h c).2 = .ok ()
  | .send _ _ => True

end Verif.TreeKem

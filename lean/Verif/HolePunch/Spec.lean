import Verif.HolePunch.Model
/-!
What is wanted of hole punching.
-/
namespace Verif.HolePunch

/-- When both endpoints get a socket, the two belong together. -/
def Agree (w : Net) : Prop :=
  ∀ i j k l, w.a.result = some (i, j) → w.b.result = some (k, l) → k = j ∧ l = i

/-- Which packets can arrive: `R i j` says that puncher `i` of the first endpoint and puncher `j` of the second one can reach
each other. -/
def Ev.Along (R : Nat → Nat → Prop) : Ev → Prop
  | .syn false i j => R i j
  | .syn true i j => R j i
  | _ => True

/-- No puncher can be reached by two. -/
def Matching (R : Nat → Nat → Prop) : Prop :=
  (∀ i j k, R i j → R i k → j = k) ∧ ∀ i j k, R i k → R j k → i = j

/-- States of attempts with `n` and `m` punchers, with the packets that can arrive. -/
inductive ReachR (R : Nat → Nat → Prop) (n m : Nat) : Net → Prop
  | init : ReachR R n m (Net.init n m)
  | step {w} (ev : Ev) : ReachR R n m w → ev.Along R → ReachR R n m (w.step ev)

/-- No packet between punchers arrives and no puncher times out. -/
def Ev.Quiet : Ev → Prop
  | .syn _ _ _ | .ack _ _ _ | .fail _ _ => False
  | _ => True

/-- The tasks can go on so that endpoint `s` returns the socket. -/
def CanReturn (w : Net) (s : Bool) (sock : Nat × Nat) : Prop :=
  ∃ evs : List Ev, (∀ ev ∈ evs, ev.Quiet) ∧ ((w.steps evs).get s).result = some sock

end Verif.HolePunch

import Verif.Toggle.Model

/-! Vocabulary for C10, over traces of (task, operation, answer). -/
namespace Verif.Toggle

abbrev Entry := Nat × Op × Option ToggleState

/-- Is guard `g` armed after the trace? The last operation naming `g` decides; only guards that were created (and
not yet dropped) can be armed. Result: `none` = not in scope, `some b` = in scope and armed iff `b`. -/
def guardStatus (g : Nat) : Option Bool → List Entry → Option Bool
  | st, [] => st
  | st, (_, .newGuard g', _) :: es => guardStatus g (if g' = g then some false else st) es
  | st, (_, .arm g', _) :: es => guardStatus g (if g' = g then st.map (fun _ => true) else st) es
  | st, (_, .disarm g', _) :: es => guardStatus g (if g' = g then st.map (fun _ => false) else st) es
  | st, (_, .dropGuard g', _) :: es => guardStatus g (if g' = g then none else st) es
  | st, _ :: es => guardStatus g st es

/-- The entry lowers the toggle, given the trace before it. -/
def Lowers (before : List Entry) : Entry → Prop
  | (_, .resetAndGetPrevious, _) => True
  | (_, .toggleOff, _) => True
  | (_, .dropGuard g, _) => guardStatus g none before = some true
  | _ => False

/-- Some task attempted to raise the toggle and nothing lowered it since. -/
def Raised (trace : List Entry) : Prop :=
  ∃ a task r b, trace = a ++ (task, Op.toggleOn, r) :: b ∧
    ∀ b₁ e b₂, b = b₁ ++ e :: b₂ → ¬ Lowers (a ++ (task, Op.toggleOn, r) :: b₁) e

end Verif.Toggle

import Verif.Common.AssocMap
/-
Model of the re-key toggle.
Source: /repo/citadel_crypt/src/sync_toggle.rs lines 57-198.

The `AtomicBool` makes each operation one atomic step (a single location, so relaxed ordering is irrelevant for the
sequence of its values). Any number of tasks issue operations; a run is any sequence of (task, operation).
Guards are named by a number; a guard that is never created cannot be armed or dropped (Rust ownership).
-/
namespace Verif.Toggle
open Verif

/-- `CurrentToggleState`, lines 67-76. -/
inductive ToggleState where
  | justToggled
  | alreadyToggled
  | untoggled
deriving DecidableEq, Repr

/-- The atomic and the guards in scope (`ToggleGuard`, lines 158-161: `armed`). -/
structure State where
  inner : Bool
  guards : AMap Nat Bool

/-- `SyncToggle::new`, lines 80-84. -/
def init : State := { inner := false, guards := [] }

inductive Op where
  | toggleOn
  | resetAndGetPrevious
  | toggleOff
  | state
  | newGuard (g : Nat)
  | arm (g : Nat)
  | disarm (g : Nat)
  | dropGuard (g : Nat)
deriving DecidableEq, Repr

/-- `AtomicBool::fetch_nand(v)`: stores `!(cur && v)`, returns `cur`. -/
def fetchNand (cur v : Bool) : Bool × Bool := (!(cur && v), cur)

/-- `AtomicBool::fetch_and(v)`. -/
def fetchAnd (cur v : Bool) : Bool × Bool := (cur && v, cur)

/-- One operation and the value it returns (if any).
`toggle_on_if_untoggled` lines 89-95, `reset_and_get_previous` 100-106, `toggle_off` 109-111, `state` 114-120,
`ToggleGuard::new` 165-170, `arm` 173-175, `disarm` 178-180, `Drop` 188-195. -/
def step (s : State) : Op → State × Option ToggleState
  | .toggleOn =>
    let r := fetchNand s.inner false
    ({ s with inner := r.1 }, some (if r.2 then .alreadyToggled else .justToggled))
  | .resetAndGetPrevious =>
    let r := fetchAnd s.inner false
    ({ s with inner := r.1 }, some (if r.2 then .alreadyToggled else .untoggled))
  | .toggleOff => ({ s with inner := false }, none)
  | .state => (s, some (if s.inner then .alreadyToggled else .untoggled))
  | .newGuard g => ({ s with guards := s.guards.insert g false }, none)
  | .arm g => ({ s with guards := if s.guards.contains g then s.guards.insert g true else s.guards }, none)
  | .disarm g => ({ s with guards := if s.guards.contains g then s.guards.insert g false else s.guards }, none)
  | .dropGuard g =>
    ({ inner := if s.guards.get? g = some true then false else s.inner, guards := s.guards.erase g }, none)

/-- An interleaving of operations by numbered tasks, with what each returned. -/
def run (s : State) : List (Nat × Op) → State × List (Nat × Op × Option ToggleState)
  | [] => (s, [])
  | (task, op) :: ops =>
    let r := step s op
    let r' := run r.1 ops
    (r'.1, (task, op, r.2) :: r'.2)

end Verif.Toggle

import Verif.Messenger.Model
/-
What is said about the messenger layer.
-/
namespace Verif.Messenger
open Verif

variable {T : Type}

/-- A call of `trigger_rekey_with_payload` fails in this step. -/
def Fails : Step T → Prop
  | .sendTrigger .failed => True
  | .drainTrigger .failed => True
  | _ => False

/-- All messages handed over have come to rest: no task has one in hand, none waits, none is on the way. -/
structure Quiet (s : Sys T) : Prop where
  send : s.sendAt = .idle
  drain : s.drainAt = .idle
  queue : s.queue = []
  wire : s.wire = []

/-- Messages wait in the queue and no task will look at it unless something else happens. -/
structure Stuck (s : Sys T) : Prop where
  send : s.sendAt = .idle
  drain : s.drainAt = .idle
  queue : s.queue ≠ []
  events : s.events = 0

/-- The messages the application handed over during these steps from state `s`. -/
def handed (mode : Mode) (s : Sys T) : List (Step T) → List T
  | [] => []
  | t :: ts =>
    (match t, s.sendAt with
      | .call m, .idle => [m]
      | _, _ => []) ++ handed mode (step mode s t) ts

end Verif.Messenger

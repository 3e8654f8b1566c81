import Verif.Queue.Model

/-! Vocabulary for C39. -/
namespace Verif.Queue

/-- The group indices and peers of the ordinary tasks, in scheduling order. -/
def ordinaries : List Op → List (Nat × Nat)
  | [] => []
  | .ordinary idx cid _ :: ops => (idx, cid) :: ordinaries ops
  | _ :: ops => ordinaries ops

/-- The explicitly chosen tickets. -/
def explicitTickets : List Op → List Ticket
  | [] => []
  | .handleReserved (some t) _ :: ops => t :: explicitTickets ops
  | .workerReserved (some t) _ :: ops => t :: explicitTickets ops
  | _ :: ops => explicitTickets ops

def Ticket.index : Ticket → Nat
  | .oneshot i _ => i
  | .periodic i _ => i

/-- How the crate itself uses the worker for system tasks: each explicit ticket has an index below 10 and is used once. -/
def ReservedDiscipline (ops : List Op) : Prop :=
  (explicitTickets ops).Nodup ∧ ∀ t ∈ explicitTickets ops, t.index < 10

/-- For one peer, later ordinary tasks never have smaller group indices. -/
def GroupIndicesGrow (ops : List Op) : Prop :=
  (ordinaries ops).Pairwise (fun a b => a.2 = b.2 → a.1 ≤ b.1)

/-- The tasks that are waiting according to the trace: inserted, and not completed since. -/
def waiting : List Event → List (Ticket × Nat)
  | [] => []
  | e :: es =>
    -- `es` is older than `e` here: traces are folded newest first
    match e with
    | .inserted t task _ => (t, task) :: waiting es
    | .fired (.oneshot i c) _ _ => (waiting es).filter (fun x => decide (x.1 ≠ .oneshot i c))
    | .fired (.periodic i c) _ .complete => (waiting es).filter (fun x => decide (x.1 ≠ .periodic i c))
    | _ => waiting es

end Verif.Queue

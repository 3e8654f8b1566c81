import Verif.Queue.Lemmas

/-! Property C39: scheduled session tasks never overwrite each other and the worker never crashes. -/
namespace Verif.Queue
open Verif

/-- **C39 is false in general (lost task).** Two ordinary tasks for the same peer with group indices 1 and then 0 get
the same ticket; the second silently replaces the first. (Indices are group ids chosen by either side, so this is
reachable: e.g. an outbound group 1 followed by the peer's inbound group 0.) -/
theorem C39_counterexample_task_lost :
    Event.inserted (.periodic 11 7) 200 (some 100) ∈
      (run new [.ordinary 1 7 100, .ordinary 0 7 200, .recv, .recv]).2 := by decide

/-- **C39 is false in general (crash).** When the first of the two timers then fires and its task is done, the entry is
gone, and the second timer's `unwrap` panics. -/
theorem C39_counterexample_crash :
    (run new [.ordinary 1 7 100, .ordinary 0 7 200, .recv, .recv, .expire (.periodic 11 7) .complete,
      .expire (.periodic 11 7) .complete]).1.crashed = true := by decide

/-- **C39 (partial).** If for each peer the group indices never decrease over time (and system tasks use their
reserved tickets once, as the crate does), then in every history: no task is ever silently replaced, the worker never
panics, exactly the inserted-and-not-completed tasks are waiting, and while the worker runs each of them has exactly one
pending timer. Missing compared to C39: arbitrary indices, for which the claim is false. -/
theorem C39_no_overwrite_partial (ops : List Op) (hr : ReservedDiscipline ops) (hg : GroupIndicesGrow ops) :
    let r := run new ops
    (∀ t task replaced, Event.inserted t task replaced ∈ r.2 → replaced = none) ∧
    r.1.crashed = false ∧ (∀ t, Event.crash t ∉ r.2) ∧
    List.Perm (waiting r.2.reverse) r.1.entries ∧
    (r.1.ended = false → List.Perm r.1.expirations ((waiting r.2.reverse).map Prod.fst)) := by
  have h := inv_run ops hr hg
  exact ⟨h.noReplace, h.ok, h.noCrash, h.waits, fun he => (h.timers he).trans (h.waits.map Prod.fst).symm⟩

/-- A history meeting the hypotheses: system tasks, two peers, growing indices, a periodic task that runs twice. -/
example : let ops : List Op := [.workerReserved (some (.oneshot 0 0)) 1, .workerReserved (some (.periodic 2 0)) 2,
      .ordinary 0 7 100, .ordinary 5 8 101, .ordinary 0 7 102, .handleReserved none 103, .recv, .recv, .recv, .recv,
      .expire (.periodic 10 7) .incomplete, .expire (.periodic 10 7) .complete, .expire (.oneshot 0 0) .complete]
    ReservedDiscipline ops ∧ GroupIndicesGrow ops ∧
    (run new ops).1.entries.keys = [.oneshot 16 0, .periodic 12 7, .periodic 16 8, .periodic 2 0] := by
  refine ⟨⟨by decide, by decide⟩, ?_, by decide⟩
  unfold GroupIndicesGrow
  decide

end Verif.Queue

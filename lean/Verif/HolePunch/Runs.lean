import Verif.HolePunch.Props
/-!
Concrete attempts: the hypotheses of the theorems are met, and the full statements fail.
-/
namespace Verif.HolePunch

variable {w : Net} {n m : Nat}

theorem Reach.steps (h : Reach n m w) (evs : List Ev) : Reach n m (w.steps evs) := by
  induction evs generalizing w with
  | nil => exact h
  | cons e evs ih => exact ih (h.step e)

theorem ReachR.stepsAlong {R : Nat → Nat → Prop} (h : ReachR R n m w) (evs : List Ev) (ha : ∀ ev ∈ evs, ev.Along R) :
    ReachR R n m (w.steps evs) := by
  induction evs generalizing w with
  | nil => exact h
  | cons e evs ih =>
    exact ih (h.step e (ha e (List.mem_cons_self ..))) (fun ev hm => ha ev (List.mem_cons_of_mem _ hm))

/-! ### An attempt that succeeds -/

/-- Endpoint `b` wins with its puncher 1; endpoint `a` rebuilds its puncher 1. -/
def goodRun : List Ev :=
  [.syn false 1 1, .ack true 1 1, .next true 1, .check true, .lock true, .send true, .win true,
   .read false, .tick false, .kill false 0, .kill false 1, .rebuild false, .rebuild false, .finish false, .finish true]

def sameNumber (i j : Nat) : Prop := i = j

theorem sameNumber_matching : Matching sameNumber :=
  ⟨fun _ _ _ h h' => h.symm.trans h', fun _ _ _ h h' => h.trans h'.symm⟩

theorem goodRun_along (k : Nat) : ReachR sameNumber 2 2 ((Net.init 2 2).steps (goodRun.take k)) := by
  apply ReachR.init.stepsAlong
  intro ev hm
  have := List.mem_of_mem_take hm
  simp only [goodRun, List.mem_cons, List.not_mem_nil, or_false] at this
  rcases this with rfl | rfl | rfl | rfl | rfl | rfl | rfl | rfl | rfl | rfl | rfl | rfl | rfl | rfl | rfl <;>
    first | trivial | rfl

/-- Both endpoints return their sockets, which belong together (C111, C112). -/
theorem goodRun_example : ∃ w, ReachR sameNumber 2 2 w ∧ Matching sameNumber ∧
    w.a.result = some (1, 1) ∧ w.b.result = some (1, 1) ∧ w.a.final.isSome ∧ w.b.final.isSome :=
  ⟨_, goodRun_along 15, sameNumber_matching, by decide, by decide, by decide, by decide⟩

/-- An endpoint that is told to use a socket and has not got it yet (C113). -/
theorem told_example : ∃ w, ReachR sameNumber 2 2 w ∧ Matching sameNumber ∧
    (w.get false).commanded = some (1, 1) ∧ (w.get false).done = false :=
  ⟨_, goodRun_along 8, sameNumber_matching, by decide, by decide⟩

/-- An endpoint that has won, whose peer does not know yet (C114). -/
theorem won_example : ∃ w, ReachR sameNumber 2 2 w ∧ Matching sameNumber ∧
    (w.get true).final = some (1, 1) ∧ (w.get true).commanded = none ∧ (w.get (!true)).done = false ∧
    (w.get (!true)).reader = true ∧ (w.get (!true)).failure = false :=
  ⟨_, goodRun_along 7, sameNumber_matching, by decide, by decide, by decide, by decide, by decide⟩

/-! ### C111: the sockets need not belong together -/

/-- Puncher 0 of `b` is answered by puncher 0 of `a` and wins; puncher 1 of `a` is answered by puncher 0 of `b`, and the poller of
`a` takes it because it leads to puncher 0 of `b`. -/
def mixedRun : List Ev :=
  [.syn false 0 0, .syn true 0 1, .ack true 0 0, .ack false 1 0, .next false 1, .next true 0, .check true, .lock true, .send true,
   .win true, .read false, .tick false, .finish false, .finish true]

theorem C111_counterexample : ∃ w, Reach 2 2 w ∧ ¬ Agree w := by
  refine ⟨(Net.init 2 2).steps mixedRun, Reach.init.steps _, ?_⟩
  intro h
  have := h 1 0 0 0 (by decide) (by decide)
  simp at this

/-! ### C114: the loser is not told -/

/-- An endpoint that does nothing any more. -/
structure Stuck (x : Node) : Prop where
  going : x.done = false
  free : x.commanded = none
  kill : x.killed = none
  res : x.res = .ended ∨ x.res = .dead
  reader : x.reader = false
  poller : x.poller = true
  rebuilt : x.rebuilt = []
  result : x.result = none

theorem Stuck.step {s : Bool} (h : Stuck (w.get s)) (ev : Ev) : Stuck ((w.step ev).get s) := by
  obtain ⟨h1, h2, h3, h4, h5, h6, h7, h8⟩ := h
  cases ev with
  | syn t _ _ | ack t _ _ | fail t _ | kill t _ | next t _ | check t | lock t | lockFail t | send t | win t | endRes t | read t
  | tick t | rebuild t | bothFailed t | finish t =>
    simp only [Net.step]
    rcases eq_or_not s t with e | e <;> subst e <;> repeat' split
    all_goals first
      | exact ⟨h1, h2, h3, h4, h5, h6, h7, h8⟩
      | (constructor <;> simp [Node.setP] <;> assumption)
      | (exfalso; grind)

theorem Stuck.steps {s : Bool} (h : Stuck (w.get s)) (evs : List Ev) : Stuck ((w.steps evs).get s) := by
  induction evs generalizing w with
  | nil => exact h
  | cons e evs ih => exact ih (h.step e)

/-- The puncher of `a` answers the SYN and then times out. `a` says so and stops reading; `b` wins, and takes the notice of failure
for the end of the attempt. -/
def lostRun : List Ev :=
  [.syn false 0 0, .ack true 0 0, .fail false 0, .next false 0, .endRes false, .next true 0, .check true, .lock true, .send true,
   .win true, .finish true]

/-- One endpoint has returned a socket, and the other one never returns, whatever happens. -/
theorem C114_counterexample : ∃ w, Reach 1 1 w ∧ w.b.result = some (0, 0) ∧ w.b.over = true ∧
    ∀ evs : List Ev, (w.steps evs).a.result = none ∧ (w.steps evs).a.done = false := by
  refine ⟨(Net.init 1 1).steps lostRun, Reach.init.steps _, by decide, by decide, ?_⟩
  intro evs
  have h : Stuck (((Net.init 1 1).steps lostRun).get false) := by
    constructor <;> decide
  have := h.steps evs
  exact ⟨this.result, this.going⟩

/-- `b` tells `a` to use a socket, and before it goes on `a` has used it and has said so: the reader of `b` ends, and with it the
resolver that was about to take the socket. -/
def earlyRun : List Ev :=
  [.syn false 0 0, .ack true 0 0, .next true 0, .check true, .lock true, .send true, .read false, .tick false, .kill false 0,
   .rebuild false, .finish false, .read true]

/-- The endpoint that was told has returned, and the winner never returns. -/
theorem C114_counterexample_early_end : ∃ w, Reach 1 1 w ∧ w.a.result = some (0, 0) ∧ w.a.over = true ∧
    ∀ evs : List Ev, (w.steps evs).b.result = none ∧ (w.steps evs).b.done = false := by
  refine ⟨(Net.init 1 1).steps earlyRun, Reach.init.steps _, by decide, by decide, ?_⟩
  intro evs
  have h : Stuck (((Net.init 1 1).steps earlyRun).get true) := by
    constructor <;> decide
  have := h.steps evs
  exact ⟨this.result, this.going⟩

/-! ### C113: an endpoint that is told to use a socket need not be able to use it -/

/-- The loser has no socket left; the winner waits for it. -/
structure Starved (w : Net) : Prop where
  going : w.a.done = false
  told : w.a.commanded = some (0, 0)
  enq : w.a.enq = []
  rebuilt : w.a.rebuilt = []
  res : w.a.res = .ended
  reader : w.a.reader = false
  poller : w.a.poller = true
  result : w.a.result = none
  ps : ∃ p q, w.a.ps = [p, q] ∧ p.st = .taken ∧ q.st = .taken
  won : w.b.done = true
  ended : w.b.res = .ended
  free : w.b.commanded = none
  inbox : w.b.inbox = []
  waits : w.b.result = none

theorem Starved.step (h : Starved w) (ev : Ev) : Starved (w.step ev) := by
  have h0 := h
  obtain ⟨h1, h2, h3, h4, h5, h6, h7, h8, ⟨p, q, h9, h10, h11⟩, h12, h16, h13, h14, h15⟩ := h
  have ha : ∀ (i : Nat) (p' : Punch), w.a.ps[i]? = some p' → p'.st = .taken := by
    intro i p' hp
    rw [h9] at hp
    match i, hp with
    | 0, hp => cases hp; exact h10
    | 1, hp => cases hp; exact h11
    | i + 2, hp => simp at hp
  have hall : w.a.allListed = false := by
    unfold Node.allListed
    rw [h9]
    simp [h10]
  cases ev with
  | tick s =>
    cases s
    · have e : ∀ r : Nat, w.a.enq.reverse.find? (fun e => decide (e.2 = r)) = none := by
        rw [h3]
        simp
      simp only [Net.step, Net.get, Bool.false_eq_true, if_false, e]
      unfold Node.allListed at hall ⊢
      repeat' split
      all_goals first
        | exact h0
        | (exfalso; grind)
        | exact ⟨h1, h2, rfl, h4, h5, h6, h7, h8, ⟨p, q, h9, h10, h11⟩, h12, h16, h13, h14, h15⟩
    · have hw : w.step (.tick true) = w := by
        simp [Net.step, Net.get, h12]
      rw [hw]
      exact h0
  | syn s _ _ | ack s _ _ | fail s _ | kill s _ =>
    cases s
    · simp only [Net.step, Net.get, Bool.false_eq_true, if_false, if_true]
      repeat' split
      all_goals first
        | exact h0
        | (exfalso; grind)
    · simp only [Net.step, Net.get, Bool.false_eq_true, if_false, if_true]
      repeat' split
      all_goals first
        | exact h0
        | exact ⟨h1, h2, h3, h4, h5, h6, h7, h8, ⟨p, q, h9, h10, h11⟩, h12, h16, h13, h14, h15⟩
  | next s _ | check s | lock s | lockFail s | send s | win s | endRes s | read s | rebuild s | bothFailed s | finish s =>
    cases s <;> simp [Net.step, Net.get, h1, h2, h4, h5, h6, h7, h12, h13, h14, h16] <;> exact h0

theorem Starved.steps (h : Starved w) (evs : List Ev) : Starved (w.steps evs) := by
  induction evs generalizing w with
  | nil => exact h
  | cons e evs ih => exact ih (h.step e)

/-- Puncher 0 of `b` is answered by puncher 0 of `a`, and puncher 0 of `a` by puncher 1 of `b`. `b` wins; `a` looks for a socket that
leads to puncher 0 of `b`, throws away the one it has, and puncher 0 has ended already. -/
def starvedRun : List Ev :=
  [.syn false 0 0, .syn true 1 0, .ack true 0 0, .ack false 0 1, .next false 0, .next true 0, .check true, .lock true, .send true,
   .win true, .read false, .check false, .tick false, .kill false 1, .next false 1, .rebuild false, .endRes false]

/-- Both endpoints wait for ever, although the network has let through packets in both directions. -/
theorem C113_counterexample : ∃ w, Reach 2 2 w ∧ (w.get false).commanded = some (0, 0) ∧ (w.get false).done = false ∧
    ∀ evs : List Ev, (w.steps evs).a.result = none ∧ (w.steps evs).b.result = none := by
  refine ⟨(Net.init 2 2).steps starvedRun, Reach.init.steps _, by decide, by decide, ?_⟩
  intro evs
  have h : Starved ((Net.init 2 2).steps starvedRun) := by
    constructor
    case ps => exact ⟨⟨some 0, .taken⟩, ⟨none, .taken⟩, by decide, rfl, rfl⟩
    all_goals decide
  have := h.steps evs
  exact ⟨this.result, this.waits⟩

theorem C113_counterexample_cannot : ∃ w, Reach 2 2 w ∧ (w.get false).commanded = some (0, 0) ∧ (w.get false).done = false ∧
    ¬ CanReturn w false (0, 0) := by
  obtain ⟨w, h1, h2, h3, h4⟩ := C113_counterexample
  refine ⟨w, h1, h2, h3, ?_⟩
  rintro ⟨evs, -, e⟩
  have := (h4 evs).1
  have e : (w.steps evs).a.result = some (0, 0) := e
  rw [this] at e
  cases e

end Verif.HolePunch

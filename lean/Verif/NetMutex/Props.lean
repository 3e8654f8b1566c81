import Verif.NetMutex.Lemmas

/-! Properties C42, C43, C44: the network mutex. -/
namespace Verif.NetMutex

/-- **C42.** In no execution, whatever the request times, do both endpoints hold the lock. -/
theorem C42_mutual_exclusion (v : Nat) (ops : List Op) :
    ¬ ((after v ops).a.st = .guard ∧ (after v ops).b.st = .guard) := by
  rintro ⟨ha, hb⟩
  have h := inv_run ops (init v) (inv_init true v)
  change Inv true _ (after v ops) at h
  generalize after v ops = s at h ha hb
  obtain ⟨a, b, ia, ib⟩ := s
  rcases h with h | h <;> cases h <;> simp_all

/-- **C43.** Whoever holds the lock sees the value left by the most recent holder on either endpoint. -/
theorem C43_latest_value (v : Nat) (ops : List Op) :
    ((after v ops).a.st = .guard → (after v ops).a.val = lastLeft (init v) v ops) ∧
    ((after v ops).b.st = .guard → (after v ops).b.val = lastLeft (init v) v ops) := by
  have h := inv_run ops (init v) (inv_init true v)
  change Inv true _ (after v ops) at h
  generalize after v ops = s at h
  generalize lastLeft (init v) v ops = l at h
  obtain ⟨a, b, ia, ib⟩ := s
  rcases h with h | h <;> cases h <;> simp

/-- No packet ever ends `yield_lock` with an error: the background handlers keep running. -/
theorem C44_handlers_survive (v : Nat) (ops : List Op) : (after v ops).a.bg = true ∧ (after v ops).b.bg = true := by
  have h := inv_run ops (init v) (inv_init true v)
  change Inv true _ (after v ops) at h
  generalize after v ops = s at h
  obtain ⟨a, b, ia, ib⟩ := s
  rcases h with h | h <;> cases h <;> simp

/-- Both endpoints ask at the same time; the second holder releases before the first one has seen its last
`ReleasedVerified`. -/
def lostRelease : List Op :=
  [.a (.lock 1), .b (.lock 0), .a .recv, .b .recv, .a .recv, .b .unlock, .a .recv, .a .unlock, .b .recv, .b .recv, .b .recv]

/-- The stuck configurations, with `x` having released the lock and `y` the other endpoint. -/
inductive StuckPair : Node → Node → List Msg → List Msg → Prop
  | idle (v u : Nat) : StuckPair ⟨.dropping false, v, true⟩ ⟨.idle, u, true⟩ [] []
  | asked (v u : Nat) (t : Int) : StuckPair ⟨.dropping false, v, true⟩ ⟨.active t, u, true⟩ [.tryAcquire t] []
  | waiting (v u : Nat) (t : Int) : StuckPair ⟨.dropping true, v, true⟩ ⟨.active t, u, true⟩ [] []

def Stuck (s : Sys) : Prop := StuckPair s.a s.b s.toA s.toB ∨ StuckPair s.b s.a s.toB s.toA

theorem stuck_step {s : Sys} (h : Stuck s) (op : Op) : Stuck (step s op) := by
  obtain ⟨a, b, ia, ib⟩ := s
  rcases h with h | h
  · left
    rcases op with o | o <;> cases o <;> cases h <;>
      simp only [step, act, recvDrop, List.nil_append, List.append_nil] <;> constructor
  · right
    rcases op with o | o <;> cases o <;> cases h <;>
      simp only [step, act, recvDrop, List.nil_append, List.append_nil] <;> constructor

/-- In a stuck state nobody ever holds the lock again. -/
theorem stuck_forever {s : Sys} (h : Stuck s) (more : List Op) :
    (more.foldl step s).a.st ≠ .guard ∧ (more.foldl step s).b.st ≠ .guard := by
  induction more generalizing s with
  | nil =>
    obtain ⟨a, b, ia, ib⟩ := s
    rcases h with h | h <;> cases h <;> simp
  | cons op more ih => exact ih (stuck_step h op)

theorem after_append (v : Nat) (ops more : List Op) : after v (ops ++ more) = more.foldl step (after v ops) := by
  unfold after; rw [List.foldl_append]

/-- **C44 is false.** After `lostRelease` no guard is held and no packet is on the way, but whatever happens later neither
endpoint ever holds the lock again. -/
theorem C44_counterexample_stuck_forever :
    Quiescent (after 0 lostRelease) ∧
    ∀ more, (after 0 (lostRelease ++ more)).a.st ≠ .guard ∧ (after 0 (lostRelease ++ more)).b.st ≠ .guard := by
  have h0 : Stuck (after 0 lostRelease) := by
    have : after 0 lostRelease = { a := ⟨.dropping false, 0, true⟩, b := ⟨.idle, 0, true⟩, toA := [], toB := [] } := by
      decide
    rw [this]; exact Or.inl (.idle _ _)
  refine ⟨by unfold Quiescent; decide, fun more => ?_⟩
  rw [after_append]
  exact stuck_forever h0 more

/-- The lost release is the only way to get stuck: a quiescent state is stuck or both endpoints are idle with the latest
value. -/
theorem C44_quiescent_cases_partial (v : Nat) (ops : List Op) (hq : Quiescent (after v ops)) :
    ((after v ops).a.st = .idle ∧ (after v ops).b.st = .idle ∧ (after v ops).a.val = lastLeft (init v) v ops ∧
      (after v ops).b.val = lastLeft (init v) v ops) ∨ Stuck (after v ops) := by
  have h := inv_run ops (init v) (inv_init true v)
  change Inv true _ (after v ops) at h
  obtain ⟨h1, h2, h3, h4⟩ := hq
  generalize after v ops = s at h h1 h2 h3 h4
  generalize lastLeft (init v) v ops = l at h
  obtain ⟨a, b, ia, ib⟩ := s
  unfold Stuck
  rcases h with h | h <;> cases h <;>
    first
      | exact Or.inl ⟨rfl, rfl, rfl, rfl⟩
      | exact Or.inr (Or.inl (by constructor))
      | exact Or.inr (Or.inr (by constructor))
      | simp_all

/-- The endpoint is inside `lock()`. -/
def Waiting (x : Node) : Prop := (∃ t, x.st = .active t) ∨ x.st = .yielding .guard

/-- The other endpoint releases what it holds and all packets are delivered, three times over. -/
def serveA : List Op :=
  let r := Op.b .unlock :: (List.replicate 4 (.b .recv) ++ List.replicate 4 (.a .recv))
  r ++ r ++ r
def serveB : List Op :=
  let r := Op.a .unlock :: (List.replicate 4 (.a .recv) ++ List.replicate 4 (.b .recv))
  r ++ r ++ r

/-- Whoever waits for the lock in a state that is not stuck gets it when the other endpoint lets go of it and packets
are delivered. -/
theorem C44_waiter_served_partial (v : Nat) (ops : List Op) (hs : ¬ Stuck (after v ops)) :
    (Waiting (after v ops).a → (after v (ops ++ serveA)).a.st = .guard) ∧
    (Waiting (after v ops).b → (after v (ops ++ serveB)).b.st = .guard) := by
  have h := inv_run ops (init v) (inv_init true v)
  change Inv true _ (after v ops) at h
  rw [after_append, after_append]
  generalize after v ops = s at h hs
  generalize lastLeft (init v) v ops = l at h
  obtain ⟨a, b, ia, ib⟩ := s
  unfold Stuck at hs
  unfold Waiting
  have sA : serveA = [.b .unlock, .b .recv, .b .recv, .b .recv, .b .recv, .a .recv, .a .recv, .a .recv, .a .recv,
      .b .unlock, .b .recv, .b .recv, .b .recv, .b .recv, .a .recv, .a .recv, .a .recv, .a .recv,
      .b .unlock, .b .recv, .b .recv, .b .recv, .b .recv, .a .recv, .a .recv, .a .recv, .a .recv] := rfl
  have sB : serveB = [.a .unlock, .a .recv, .a .recv, .a .recv, .a .recv, .b .recv, .b .recv, .b .recv, .b .recv,
      .a .unlock, .a .recv, .a .recv, .a .recv, .a .recv, .b .recv, .b .recv, .b .recv, .b .recv,
      .a .unlock, .a .recv, .a .recv, .a .recv, .a .recv, .b .recv, .b .recv, .b .recv, .b .recv] := rfl
  rcases h with h | h
  · cases h with
    | c1 tx ty =>
      have hw := wins_swap true tx ty
      cases hw' : wins true tx ty <;> rw [hw'] at hw <;> simp only [Bool.not_true, Bool.not_false] at hw <;>
        simp [sA, sB, step, act, recvIdle, recvActive, recvYield, recvDrop, hw, hw']
    | c4 tx u => exact absurd (Or.inr (.asked _ _ _)) hs
    | c7 tx u => exact absurd (Or.inr (.waiting _ _ _)) hs
    | _ => simp [sA, sB, step, act, recvIdle, recvActive, recvYield, recvDrop, *]
  · cases h with
    | c1 tx ty =>
      have hw := wins_swap false tx ty
      cases hw' : wins false tx ty <;> rw [hw'] at hw <;> simp only [Bool.not_true, Bool.not_false] at hw <;>
        simp [sA, sB, step, act, recvIdle, recvActive, recvYield, recvDrop, hw, hw']
    | c4 tx u => exact absurd (Or.inl (.asked _ _ _)) hs
    | c7 tx u => exact absurd (Or.inl (.waiting _ _ _)) hs
    | _ => simp [sA, sB, step, act, recvIdle, recvActive, recvYield, recvDrop, *]

/-- **C44 (partial).** If the endpoints never waited for the lock at the same time, then in every quiescent state both are
idle, and a request of either endpoint followed by the two deliveries it causes ends with that endpoint holding the
lock. Missing: executions with simultaneous requests, for which the claim is false. -/
theorem C44_reacquire_partial (v : Nat) (ops : List Op) (t : Int)
    (hnc : ∀ pre post, ops = pre ++ post →
      ¬ ((∃ t, (after v pre).a.st = .active t) ∧ ∃ t, (after v pre).b.st = .active t))
    (hq : Quiescent (after v ops)) :
    (after v ops).a.st = .idle ∧ (after v ops).b.st = .idle ∧
    (after v (ops ++ [.a (.lock t), .b .recv, .a .recv])).a.st = .guard ∧
    (after v (ops ++ [.b (.lock t), .a .recv, .b .recv])).b.st = .guard := by
  have act' : ∀ st : St, isActive st = true → ∃ t, st = .active t := by
    intro st h; cases st <;> first | exact ⟨_, rfl⟩ | cases h
  obtain ⟨u, h⟩ := inv_quiet v ops (fun pre post e => by
    rw [Bool.eq_false_iff]
    intro hb
    unfold bothActive at hb
    obtain ⟨h1, h2⟩ := Bool.and_eq_true_iff.1 hb
    exact hnc pre post e ⟨act' _ h1, act' _ h2⟩)
  have e : ∀ l, after v (ops ++ l) = l.foldl step (after v ops) := by
    intro l; unfold after; rw [List.foldl_append]
  rw [e, e]
  obtain ⟨h1, h2, h3, h4⟩ := hq
  generalize after v ops = s at h h1 h2 h3 h4
  obtain ⟨a, b, ia, ib⟩ := s
  rcases h with h | h <;> cases h <;>
    simp_all [step, act, recvIdle, recvActive]

/-- A contended round in which both endpoints hold the lock one after the other and see each other's value. -/
example : let ops := [Op.a (.lock 1), .b (.lock 0), .a .recv, .b .recv, .b (.write 7), .a .recv, .b .unlock, .a .recv]
    (after 0 ops).a.st = .guard ∧ (after 0 ops).a.val = 7 ∧ lastLeft (init 0) 0 ops = 7 := by decide
/-- The hypotheses of `C44_reacquire_partial` are met after a complete uncontended round. -/
example : let ops := [Op.a (.lock 1), .b .recv, .a .recv, .a (.write 3), .a .unlock, .b .recv, .b .recv, .b .recv, .a .recv, .a .recv]
    Quiescent (after 0 ops) ∧ (after 0 ops).b.val = 3 ∧
    (∀ n ≤ ops.length, isActive (after 0 (ops.take n)).a.st = false ∨ isActive (after 0 (ops.take n)).b.st = false) := by
  unfold Quiescent; decide

end Verif.NetMutex

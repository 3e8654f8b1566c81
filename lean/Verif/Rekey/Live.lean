import Verif.Rekey.Props
/-
C83: the re-key protocol comes to rest.  A weight for every program counter and message, such that every step other
than the start of a new call makes the total smaller.
-/
namespace Verif.Rekey

/-- What is left to do for the background task. -/
def bWeight : BPc → Nat
  | .recv => 0
  | .roundStart => 1
  | .roundEnd => 2
  | .toggleOff => 3
  | .roleIdle => 4
  | .retain => 5
  | .errSync => 2
  | .errRole => 3
  | .errToggle => 4
  | .stale _ => 5
  | .fSync _ => 6
  | .fBump _ => 7
  | .fRole _ => 8
  | .lSend => 15
  | .lRemove => 16
  | .lSync => 17
  | .lBump => 18
  | .lRole _ => 19
  | .aSendTrunc _ => 21
  | .aSendLoser => 21
  | .aDereg _ => 22
  | .aCommit _ _ => 23
  | .aToggle _ _ => 24
  | .b2aTake _ _ _ => 25
  | .b2aHas _ _ _ => 26
  | .b2aRole _ _ _ => 27
  | .b2aMeta _ _ _ => 28
  | .bSend _ _ => 30
  | .bRole _ _ => 31
  | .bToggle2 _ _ => 32
  | .bCommit _ => 33
  | .bContended => 33
  | .bToggle _ => 34
  | .a2bValidate _ _ => 35
  | .a2bBarrier _ _ _ => 36

/-- What a message makes its receiver do. -/
def mWeight : Msg → Nat
  | .aliceToBob _ _ _ => 37
  | .bobToAlice _ _ _ => 29
  | .truncate _ => 20
  | .loserCanFinish => 20
  | .leaderCanFinish _ => 9

/-- What is left to do for the trigger task. -/
def tWeight : TPc → Nat
  | .idle => 0
  | .send l => 38 + 60 * (maxRetries - l.r)
  | .sleep l => 39 + 60 * (maxRetries - l.r)
  | .rOff l => 40 + 60 * (maxRetries - l.r)
  | .rRemove l => 41 + 60 * (maxRetries - l.r)
  | .rSync l => 42 + 60 * (maxRetries - l.r)
  | .check l => 43 + 60 * (maxRetries - l.r)
  | .toggle l => 44 + 60 * (maxRetries - l.r)
  | .store l => 45 + 60 * (maxRetries - l.r)
  | .declare l => 46 + 60 * (maxRetries - l.r)
  | .snap l => 47 + 60 * (maxRetries - l.r)
  | .next l => 48 + 60 * (maxRetries - l.r)
  | .version l => 49 + 60 * (maxRetries - l.r)
  | .top l => if maxRetries ≤ l.r then 1 else 50 + 60 * (maxRetries - l.r)
  | .role l => 51 + 60 * (maxRetries - l.r)
  | .declared l => 52 + 60 * (maxRetries - l.r)

def lWeight (l : List Msg) : Nat := (l.map mWeight).sum

/-- What is left to do. -/
def weight (s : Sys) : Nat :=
  bWeight s.i.b + tWeight s.i.t + lWeight s.toI + (bWeight s.n.b + tWeight s.n.t + lWeight s.toN)

theorem lWeight_append (l l' : List Msg) : lWeight (l ++ l') = lWeight l + lWeight l' := by simp [lWeight]

theorem skip_weight (x : EP) : bWeight (skip x).b ≤ 4 := by
  unfold skip; split <;> simp [bWeight]

theorem skip_t (x : EP) : (skip x).t = x.t := by unfold skip; split <;> rfl

theorem dereg_t {maxR : Nat} {x x' : EP} {v : Nat} (h : dereg maxR x v = some x') : x'.t = x.t := by
  unfold dereg at h
  split at h
  · cases h
  · split at h
    · cases h
    · cases h; rfl

theorem bLocal_t (maxR : Nat) (init : Bool) (x : EP) : (bLocal maxR init x).t = x.t := by
  unfold bLocal
  split
  all_goals repeat' split
  all_goals first
    | rfl
    | (rw [skip_t])
    | (rename_i h; dsimp only; rw [dereg_t h])

/-- Where the background task does not act locally. -/
def bIO : BPc → Bool
  | .recv => true
  | .bCommit _ => true
  | .bSend _ _ => true
  | .aSendTrunc _ => true
  | .aSendLoser => true
  | .lSend => true
  | _ => false

theorem bLocal_weight (maxR : Nat) (init : Bool) (x : EP) (h : bIO x.b = false) :
    bWeight (bLocal maxR init x).b < bWeight x.b := by
  cases hb : x.b <;> rw [hb] at h <;> simp only [bIO] at h <;> first | (exact absurd h (by decide)) | skip
  all_goals simp only [bLocal, hb]
  all_goals first | (simp only [bWeight]; omega) | skip
  all_goals repeat' split
  all_goals first
    | (refine Nat.lt_of_le_of_lt (skip_weight _) ?_; simp only [bWeight]; omega)
    | (simp only [bWeight]; omega)

theorem bPoint_IO {p : BPc} (h : bPoint p = false) : bIO p = false := by
  cases p <;> first | rfl | cases h

theorem bSettle_weight (maxR : Nat) (init : Bool) : ∀ (n : Nat) (x : EP),
    bWeight (bSettle maxR init n x).b ≤ bWeight x.b ∧ (bSettle maxR init n x).t = x.t := by
  intro n
  induction n with
  | zero => intro x; exact ⟨Nat.le_refl _, rfl⟩
  | succ n ih =>
    intro x
    cases hp : bPoint x.b with
    | true => rw [bSettle_stop hp]; exact ⟨Nat.le_refl _, rfl⟩
    | false =>
      rw [bSettle_next hp rfl]
      have h1 := ih (bLocal maxR init x)
      have h2 := bLocal_weight maxR init x (bPoint_IO hp)
      exact ⟨by omega, h1.2.trans (bLocal_t maxR init x)⟩

/-- A step of the background task that finds something to do. -/
theorem bStep_weight (maxR : Nat) (init : Bool) (x : EP) (inn : List Msg) (fr : Nat)
    (h : ¬ (x.b = .recv ∧ inn = [])) :
    bWeight (bStep maxR init x inn fr).1.b + lWeight (bStep maxR init x inn fr).2.1
        + lWeight (bStep maxR init x inn fr).2.2 < bWeight x.b + lWeight inn ∧
      (bStep maxR init x inn fr).1.t = x.t := by
  cases hio : bIO x.b with
  | false =>
    have e : bStep maxR init x inn fr = (bLocal maxR init x, inn, []) := by
      cases hb : x.b <;> rw [hb] at hio <;> simp only [bIO] at hio <;>
        first | (exact absurd hio (by decide)) | (simp only [bStep, hb])
    rw [e]
    have := bLocal_weight maxR init x hio
    refine ⟨?_, bLocal_t maxR init x⟩
    simp only [lWeight, List.map_nil, List.sum_nil]
    omega
  | true =>
    cases hb : x.b <;> rw [hb] at hio <;> simp only [bIO] at hio <;> first | (exact absurd hio (by decide)) | skip
    · cases inn with
      | nil => exact absurd ⟨hb, rfl⟩ h
      | cons m rest =>
        simp only [bStep, hb, and_true]
        cases m <;> simp [dispatch, bWeight, lWeight, mWeight] <;> omega
    all_goals
      simp only [bStep, hb, commit, and_true]
      simp [bWeight, lWeight, mWeight]
      try omega

theorem bStep_empty (maxR : Nat) (init : Bool) (x : EP) (fr : Nat) (h : x.b = .recv) :
    bStep maxR init x [] fr = (x, [], []) := by simp only [bStep, h]

theorem tLocal_b (x : EP) (fr : Nat) : (tLocal x fr).b = x.b := by
  unfold tLocal
  split
  all_goals repeat' split
  all_goals rfl

theorem tLocal_weight (x : EP) (fr : Nat) (h : x.t ≠ .idle) (h' : ∀ l, x.t ≠ .send l) :
    tWeight (tLocal x fr).t < tWeight x.t := by
  cases ht : x.t
  case idle => exact absurd ht h
  case send l => exact absurd ht (h' l)
  case sleep l =>
    simp only [tLocal, ht, tWeight]
    split
    · omega
    · omega
  case top l =>
    simp only [tLocal, ht]
    by_cases hr : l.r ≥ maxRetries
    · simp [hr, tWeight]
    · have hr' : ¬ maxRetries ≤ l.r := hr
      rw [if_neg hr]
      simp only [tWeight]
      rw [if_neg hr']
      omega
  case role l =>
    simp only [tLocal, ht]
    split
    · simp only [tWeight]; split <;> omega
    · simp only [tWeight]; omega
  all_goals simp only [tLocal, ht]
  all_goals repeat' split
  all_goals (simp only [tWeight]; omega)

theorem tStep_weight (x : EP) (fr : Nat) (h : x.t ≠ .idle) :
    tWeight (tStep x fr).1.t + lWeight (tStep x fr).2 < tWeight x.t ∧ (tStep x fr).1.b = x.b := by
  by_cases hs : ∃ l, x.t = .send l
  · obtain ⟨l, hs⟩ := hs
    simp only [tStep, hs, and_true]
    simp [tWeight, lWeight, mWeight]
    omega
  · have e : tStep x fr = (tLocal x fr, []) := by
      cases ht : x.t
      case send l => exact absurd ⟨l, ht⟩ hs
      all_goals simp only [tStep, ht]
    rw [e]
    have := tLocal_weight x fr h (fun l hl => hs ⟨l, hl⟩)
    refine ⟨?_, tLocal_b x fr⟩
    simp [lWeight]
    exact this

/-- What a new call has to do. -/
def callWeight : Nat := 352

theorem tStep_call (x : EP) (fr : Nat) (h : x.t = .idle) :
    tWeight (tStep x fr).1.t + lWeight (tStep x fr).2 = tWeight x.t + callWeight ∧ (tStep x fr).1.b = x.b := by
  simp only [tStep, h, tLocal, and_true]
  simp [tWeight, lWeight, maxRetries, callWeight]

theorem tSettle_weight (fr : Nat) : ∀ (n : Nat) (x : EP),
    tWeight (tSettle fr n x).t ≤ tWeight x.t ∧ (tSettle fr n x).b = x.b := by
  intro n
  induction n with
  | zero => intro x; exact ⟨Nat.le_refl _, rfl⟩
  | succ n ih =>
    intro x
    cases hp : tPoint x.t with
    | true => rw [tSettle_stop hp]; exact ⟨Nat.le_refl _, rfl⟩
    | false =>
      rw [tSettle_next hp]
      have h1 := ih (tLocal x fr)
      have h2 := tLocal_weight x fr (fun e => by rw [e] at hp; cases hp) (fun l e => by rw [e] at hp; cases hp)
      exact ⟨by omega, h1.2.trans (tLocal_b x fr)⟩

/-! ### Steps -/

/-- The decision starts a new call. -/
def calls (s : Sys) : Act → Bool
  | .trig true _ => decide (s.i.t = .idle)
  | .trig false _ => decide (s.n.t = .idle)
  | _ => false

/-- The chosen task has something to do. -/
def moves (s : Sys) : Act → Bool
  | .bg true _ => !(decide (s.i.b = .recv) && s.toI.isEmpty)
  | .bg false _ => !(decide (s.n.b = .recv) && s.toN.isEmpty)
  | .trig true _ => decide (s.i.t ≠ .idle)
  | .trig false _ => decide (s.n.t ≠ .idle)

/-- The chosen task has something to do and may run. -/
def coopMoves (s : Sys) : Act → Bool
  | .bg true fr => moves s (.bg true fr) && bgEnabled s.i
  | .bg false fr => moves s (.bg false fr) && bgEnabled s.n
  | a => moves s a

/-- How often `p` holds along a run. -/
def count (step : Sys → Act → Sys) (p : Sys → Act → Bool) : Sys → List Act → Nat
  | _, [] => 0
  | s, a :: as => (if p s a then 1 else 0) + count step p (step s a) as

theorem moves_bgI {s : Sys} {fr : Nat} (h : moves s (.bg true fr) = true) : ¬ (s.i.b = .recv ∧ s.toI = []) := by
  rintro ⟨h1, h2⟩
  simp [moves, h1, h2] at h

theorem moves_bgN {s : Sys} {fr : Nat} (h : moves s (.bg false fr) = true) : ¬ (s.n.b = .recv ∧ s.toN = []) := by
  rintro ⟨h1, h2⟩
  simp [moves, h1, h2] at h

theorem not_moves_bgI {s : Sys} {fr : Nat} (h : moves s (.bg true fr) = false) : s.i.b = .recv ∧ s.toI = [] := by
  simpa [moves] using h

theorem not_moves_bgN {s : Sys} {fr : Nat} (h : moves s (.bg false fr) = false) : s.n.b = .recv ∧ s.toN = [] := by
  simpa [moves] using h

theorem fine_weight (maxR : Nat) (s : Sys) (a : Act) :
    weight (fineStep maxR s a) + (if moves s a then 1 else 0)
      ≤ weight s + callWeight * (if calls s a then 1 else 0) := by
  rcases a with ⟨_ | _, fr⟩ | ⟨_ | _, fr⟩
  · cases hm : moves s (.bg false fr) with
    | true =>
      have h := bStep_weight maxR false s.n s.toN fr (moves_bgN hm)
      simp only [fineStep, weight, lWeight_append, h.2, calls, if_true]
      simp
      omega
    | false =>
      obtain ⟨h1, h2⟩ := not_moves_bgN hm
      simp [fineStep, weight, h2, bStep_empty maxR false s.n fr h1, calls]
  · cases hm : moves s (.bg true fr) with
    | true =>
      have h := bStep_weight maxR true s.i s.toI fr (moves_bgI hm)
      simp only [fineStep, weight, lWeight_append, h.2, calls, if_true]
      simp
      omega
    | false =>
      obtain ⟨h1, h2⟩ := not_moves_bgI hm
      simp [fineStep, weight, h2, bStep_empty maxR true s.i fr h1, calls]
  · by_cases ht : s.n.t = .idle
    · have h := tStep_call s.n fr ht
      simp [fineStep, weight, lWeight_append, h.2, calls, moves, ht]
      rw [ht] at h
      simp only [tWeight] at h ⊢
      omega
    · have h := tStep_weight s.n fr ht
      simp [fineStep, weight, lWeight_append, h.2, calls, moves, ht]
      omega
  · by_cases ht : s.i.t = .idle
    · have h := tStep_call s.i fr ht
      simp [fineStep, weight, lWeight_append, h.2, calls, moves, ht]
      rw [ht] at h
      simp only [tWeight] at h ⊢
      omega
    · have h := tStep_weight s.i fr ht
      simp [fineStep, weight, lWeight_append, h.2, calls, moves, ht]
      omega

theorem coop_weight (maxR : Nat) (s : Sys) (a : Act) :
    weight (coopStep maxR s a) + (if coopMoves s a then 1 else 0)
      ≤ weight s + callWeight * (if calls s a then 1 else 0) := by
  have hf := fine_weight maxR s a
  rcases a with ⟨_ | _, fr⟩ | ⟨_ | _, fr⟩
  · cases he : bgEnabled s.n with
    | true =>
      have h := bSettle_weight maxR false bFuel (bStep maxR false s.n s.toN fr).1
      simp only [coopMoves, he, Bool.and_true]
      simp only [coopStep, he, if_true, bMacro, weight, h.2] at hf ⊢
      simp only [fineStep] at hf
      omega
    | false => simp [coopStep, coopMoves, he, calls]
  · cases he : bgEnabled s.i with
    | true =>
      have h := bSettle_weight maxR true bFuel (bStep maxR true s.i s.toI fr).1
      simp only [coopMoves, he, Bool.and_true]
      simp only [coopStep, he, if_true, bMacro, weight, h.2] at hf ⊢
      simp only [fineStep] at hf
      omega
    | false => simp [coopStep, coopMoves, he, calls]
  · have h := tSettle_weight fr tFuel (tStep s.n fr).1
    rw [show coopMoves s (.trig false fr) = moves s (.trig false fr) from rfl]
    simp only [coopStep, tMacro, weight, h.2] at hf ⊢
    simp only [fineStep] at hf
    omega
  · have h := tSettle_weight fr tFuel (tStep s.i fr).1
    rw [show coopMoves s (.trig true fr) = moves s (.trig true fr) from rfl]
    simp only [coopStep, tMacro, weight, h.2] at hf ⊢
    simp only [fineStep] at hf
    omega

theorem count_weight {step : Sys → Act → Sys} {p : Sys → Act → Bool}
    (h : ∀ s a, weight (step s a) + (if p s a then 1 else 0) ≤ weight s + callWeight * (if calls s a then 1 else 0))
    (s : Sys) (acts : List Act) :
    weight (run step s acts) + count step p s acts ≤ weight s + callWeight * count step calls s acts := by
  induction acts generalizing s with
  | nil => simp [run, count]
  | cons a as ih =>
    have h1 := h s a
    have h2 := ih (step s a)
    simp only [run, count]
    rw [Nat.mul_add]
    omega

/-! ### C83 -/

theorem weight_start (v : Nat) (k : Key) : weight (start v k) = 0 := by
  simp [weight, start, freshEP, bWeight, tWeight, lWeight]

/-- Every call leads to at most 352 further steps, at both endpoints together, whatever the scheduler does: with
finitely many calls the protocol comes to rest. -/
theorem C83_terminates (maxR v : Nat) (k : Key) (acts : List Act) :
    count (fineStep maxR) moves (start v k) acts ≤ 352 * count (fineStep maxR) calls (start v k) acts := by
  have := count_weight (fine_weight maxR) (start v k) acts
  rw [weight_start] at this
  simp only [callWeight] at this
  omega

theorem C83_terminates_coop (maxR v : Nat) (k : Key) (acts : List Act) :
    count (coopStep maxR) coopMoves (start v k) acts ≤ 352 * count (coopStep maxR) calls (start v k) acts := by
  have := count_weight (coop_weight maxR) (start v k) acts
  rw [weight_start] at this
  simp only [callWeight] at this
  omega

/-- Whenever something is under way, some task that may run has something to do, under either scheduler, from any
state. -/
theorem C83_no_deadlock (s : Sys) (h : ¬ AtRest s) :
    ∃ a, coopMoves s a = true ∧ moves s a = true ∧ calls s a = false := by
  by_cases h1 : s.i.t = .idle
  · by_cases h2 : s.n.t = .idle
    · have e1 : bgEnabled s.i = true := by simp [bgEnabled, holdsExecutor, h1]
      have e2 : bgEnabled s.n = true := by simp [bgEnabled, holdsExecutor, h2]
      by_cases h3 : s.i.b = .recv ∧ s.toI = []
      · by_cases h4 : s.n.b = .recv ∧ s.toN = []
        · exact absurd ⟨h3.2, h4.2, h1, h2, h3.1, h4.1⟩ h
        · have hm : moves s (.bg false 0) = true := by
            cases hm : moves s (.bg false 0) with
            | true => rfl
            | false => exact absurd (not_moves_bgN hm) h4
          exact ⟨.bg false 0, by simp [coopMoves, hm, e2], hm, rfl⟩
      · have hm : moves s (.bg true 0) = true := by
          cases hm : moves s (.bg true 0) with
          | true => rfl
          | false => exact absurd (not_moves_bgI hm) h3
        exact ⟨.bg true 0, by simp [coopMoves, hm, e1], hm, rfl⟩
    · exact ⟨.trig false 0, by simp [coopMoves, moves, h2], by simp [moves, h2], by simp [calls, h2]⟩
  · exact ⟨.trig true 0, by simp [coopMoves, moves, h1], by simp [moves, h1], by simp [calls, h1]⟩

/-- From every state a schedule without new calls leads to rest. -/
theorem C83_comes_to_rest (maxR : Nat) (s : Sys) :
    ∃ acts, AtRest (run (coopStep maxR) s acts) ∧ count (coopStep maxR) calls s acts = 0 ∧ acts.length ≤ weight s := by
  generalize hw : weight s = w
  induction w using Nat.strongRecOn generalizing s with
  | ind w ih =>
    by_cases h : AtRest s
    · exact ⟨[], h, rfl, Nat.zero_le _⟩
    · obtain ⟨a, hm, _, hc⟩ := C83_no_deadlock s h
      have hd := coop_weight maxR s a
      rw [hm, hc] at hd
      simp at hd
      obtain ⟨acts, hr, hz, hl⟩ := ih (weight (coopStep maxR s a)) (by omega) (coopStep maxR s a) rfl
      refine ⟨a :: acts, hr, ?_, ?_⟩
      · simp only [count, hc]
        simpa using hz
      · simp only [List.length_cons]; omega

/-- However a session has re-keyed under cooperative scheduling, it can be brought to a state in which both endpoints
hold the same ratchets and are ready for the next re-key.  Missing: the preemptive scheduler. -/
theorem C83_recovers_partial {maxR : Nat} (hR : 3 ≤ maxR) (v : Nat) (k : Key) (acts : List Act) :
    ∃ more, let s := run (coopStep maxR) (start v k) (acts ++ more)
      AtRest s ∧ ReadyEP s.i ∧ ReadyEP s.n ∧ s.i.latest = s.n.latest ∧ ∀ v, s.i.keys v = s.n.keys v := by
  obtain ⟨more, hr, _⟩ := C83_comes_to_rest maxR (run (coopStep maxR) (start v k) acts)
  refine ⟨more, ?_⟩
  have hr' : AtRest (run (coopStep maxR) (start v k) (acts ++ more)) := by rw [run_append]; exact hr
  exact ⟨hr', C82_ready_partial hR v k (acts ++ more) hr'⟩

/-! ### A ready pair re-keys -/

/-- The endpoint `w`, its peer, and the messages to either. -/
def two (w : Bool) (x y : EP) (tx ty : List Msg) : Sys := if w then ⟨x, y, tx, ty⟩ else ⟨y, x, ty, tx⟩

def Reach (maxR : Nat) (s s' : Sys) : Prop := ∃ acts, run (coopStep maxR) s acts = s'

theorem Reach.refl {maxR : Nat} (s : Sys) : Reach maxR s s := ⟨[], rfl⟩

theorem Reach.trans {maxR : Nat} {s s' s'' : Sys} (h : Reach maxR s s') (h' : Reach maxR s' s'') :
    Reach maxR s s'' := by
  obtain ⟨as, h⟩ := h
  obtain ⟨bs, h'⟩ := h'
  exact ⟨as ++ bs, by rw [run_append, h, h']⟩

section
variable {maxR : Nat} {w : Bool} {x y x' y' : EP} {tx ty tx' ty' out : List Msg} {fr : Nat}

theorem Reach.trig (h : tMacro x fr = (x', out)) : Reach maxR (two w x y tx ty) (two w x' y tx (ty ++ out)) := by
  refine ⟨[.trig w fr], ?_⟩
  cases w
  · have e : tMacro (two false x y tx ty).n fr = (x', out) := h
    simp only [run, coopStep, e]
    rfl
  · have e : tMacro (two true x y tx ty).i fr = (x', out) := h
    simp only [run, coopStep, e]
    rfl

theorem Reach.own (he : bgEnabled x = true) (h : bMacro maxR w x tx fr = (x', tx', out)) :
    Reach maxR (two w x y tx ty) (two w x' y tx' (ty ++ out)) := by
  refine ⟨[.bg w fr], ?_⟩
  cases w
  · have e : bgEnabled (two false x y tx ty).n = true := he
    have e' : bMacro maxR false (two false x y tx ty).n (two false x y tx ty).toN fr = (x', tx', out) := h
    simp only [run, coopStep, e, if_true, e']
    rfl
  · have e : bgEnabled (two true x y tx ty).i = true := he
    have e' : bMacro maxR true (two true x y tx ty).i (two true x y tx ty).toI fr = (x', tx', out) := h
    simp only [run, coopStep, e, if_true, e']
    rfl

theorem Reach.peer (he : bgEnabled y = true) (h : bMacro maxR (!w) y ty fr = (y', ty', out)) :
    Reach maxR (two w x y tx ty) (two w x y' (tx ++ out) ty') := by
  refine ⟨[.bg (!w) fr], ?_⟩
  cases w
  · have e : bgEnabled (two false x y tx ty).i = true := he
    have e' : bMacro maxR true (two false x y tx ty).i (two false x y tx ty).toI fr = (y', ty', out) := h
    simp only [run, coopStep, e, if_true, e', Bool.not_false]
    rfl
  · have e : bgEnabled (two true x y tx ty).n = true := he
    have e' : bMacro maxR false (two true x y tx ty).n (two true x y tx ty).toN fr = (y', ty', out) := h
    simp only [run, coopStep, e, if_true, e', Bool.not_true]
    rfl

end

theorem enabled_idle {x : EP} (h : x.t = .idle) : bgEnabled x = true := by simp [bgEnabled, holdsExecutor, h]

/-- One re-key, started by the endpoint `w` with contribution `c`, answered with contribution `d`. -/
theorem ready_rekeys {maxR : Nat} (_hR : 3 ≤ maxR) (w : Bool) {x y : EP} (c d : Nat)
    (rx : ReadyEP x) (ry : ReadyEP y) (tx : x.t = .idle) (ty : y.t = .idle) (bx : x.b = .recv) (byy : y.b = .recv)
    (hv : x.latest = y.latest) (hk : ∀ k, (x.keys k).isSome = true ↔ x.oldest ≤ k ∧ k ≤ x.most)
    (hk' : ∀ k, (y.keys k).isSome = true ↔ y.oldest ≤ k ∧ k ≤ y.most) (ho : x.oldest = y.oldest)
    (hlo : x.oldest ≤ x.latest) :
    ∃ x' y' t t', Reach maxR (two w x y [] []) (two w x' y' t t') ∧ x'.latest = x.latest + 1 ∧
      y'.latest = x.latest + 1 ∧ x'.keys (x.latest + 1) = some ⟨c, d⟩ ∧ y'.keys (x.latest + 1) = some ⟨c, d⟩ := by
  have kx : (x.keys x.latest).isSome = true := (hk _).mpr ⟨hlo, by have := rx.newest; omega⟩
  have ky : (y.keys y.latest).isSome = true := (hk' _).mpr ⟨by omega, by have := ry.newest; omega⟩
  have mx := rx.newest
  have my := ry.newest
  have dx := rx.declared
  have dy := ry.declared
  -- the call
  have r1 := Reach.trig (maxR := maxR) (w := w) (y := y) (tx := []) (ty := [])
    (tMacro_start (fr := c) tx (by omega) rx.role rx.toggle kx)
  have r2 := Reach.trig (maxR := maxR) (w := w) (y := y) (tx := []) (ty := [])
    (tMacro_declare (x := { x with tog := true, t := .declare (loc x.latest c) }) (fr := c) rfl)
  have r3 := Reach.trig (maxR := maxR) (w := w) (y := y) (tx := []) (ty := [])
    (tMacro_check_ok (x := { x with declared := x.declared + 1, cons := put x.cons (x.latest + 1) c, tog := true
                                    t := .check (loc x.latest c) }) (fr := c) rfl rfl)
  have r4 := Reach.trig (maxR := maxR) (w := w) (y := y) (tx := []) (ty := [])
    (tMacro_send (x := { x with declared := x.declared + 1, cons := put x.cons (x.latest + 1) c, tog := true
                                t := .send (loc x.latest c) }) (fr := c) rfl)
  have r := ((r1.trans r2).trans r3).trans r4
  clear r1 r2 r3 r4
  simp only [List.nil_append] at r
  generalize hx1 : ({ x with declared := x.declared + 1, cons := put x.cons (x.latest + 1) c, tog := true
                             t := TPc.idle } : EP) = x1 at r
  -- the answer
  have r5 := Reach.peer (maxR := maxR) (w := w) (x := x1) (tx := []) (enabled_idle ty)
    (bMacro_a2b_ok (maxR := maxR) (init := !w) (rest := []) (fr := 0) (a := c) byy ky hv (by rw [ry.round, ← hv])
      (fun h => by rw [ry.role] at h; cases h))
  have r6 := Reach.peer (maxR := maxR) (w := w) (x := x1) (tx := []) (ty := []) (enabled_idle (x := { y with b := .bToggle c }) ty)
    (bMacro_bToggle_commit (maxR := maxR) (init := !w) (inn := []) (fr := 0) (a := c) (x := { y with b := .bToggle c })
      rfl (Or.inl ry.toggle))
  have r7 := Reach.peer (maxR := maxR) (w := w) (x := x1) (tx := []) (ty := [])
    (enabled_idle (x := { y with b := .bCommit c, tog := true }) ty)
    (bMacro_bCommit (maxR := maxR) (init := !w) (inn := []) (fr := d) (a := c) (x := { y with b := .bCommit c, tog := true })
      rfl)
  have r8 := Reach.peer (maxR := maxR) (w := w) (x := x1) (tx := []) (ty := [])
    (enabled_idle (x := { y with b := .bToggle2 c d, tog := true, most := y.most + 1
                                 keys := put y.keys (y.most + 1) ⟨c, d⟩ }) ty)
    (bMacro_bToggle2 (maxR := maxR) (init := !w) (inn := []) (fr := d)
      (x := { y with b := .bToggle2 c d, tog := true, most := y.most + 1, keys := put y.keys (y.most + 1) ⟨c, d⟩ }) rfl)
  have r9 := Reach.peer (maxR := maxR) (w := w) (x := x1) (tx := []) (ty := [])
    (enabled_idle (x := { y with b := .bSend c d, tog := true, role := .loser, most := y.most + 1
                                 keys := put y.keys (y.most + 1) ⟨c, d⟩ }) ty)
    (bMacro_bSend (maxR := maxR) (init := !w) (inn := []) (fr := d)
      (x := { y with b := .bSend c d, tog := true, role := .loser, most := y.most + 1
                     keys := put y.keys (y.most + 1) ⟨c, d⟩ }) rfl)
  have r := ((((r.trans r5).trans r6).trans r7).trans r8).trans r9
  clear r5 r6 r7 r8 r9
  simp only [List.nil_append] at r
  generalize hy1 : ({ y with b := BPc.recv, tog := true, role := .loser, most := y.most + 1
                             keys := put y.keys (y.most + 1) ⟨c, d⟩ } : EP) = y1 at r
  have x1b : x1.b = .recv := by rw [← hx1]; exact bx
  have x1t : x1.t = .idle := by rw [← hx1]
  have x1l : x1.latest = x.latest := by rw [← hx1]
  have x1o : x1.oldest = x.oldest := by rw [← hx1]
  have x1m : x1.most = x.latest := by rw [← hx1]; exact mx
  have x1c : x1.cons (y.rmeta + 1) = some c := by rw [← hx1, ry.round, ← hv]; exact put_same _ _ _
  have x1r : x1.role = .idle := by rw [← hx1]; exact rx.role
  have x1k : x1.keys = x.keys := by rw [← hx1]
  have y1t : y1.t = .idle := by rw [← hy1]; exact ty
  have y1b : y1.b = .recv := by rw [← hy1]
  have y1r : y1.role = .loser := by rw [← hy1]
  have y1l : y1.latest = x.latest := by rw [← hy1]; exact hv.symm
  have y1m : y1.most = x.latest + 1 := by rw [← hy1]; dsimp only; omega
  have y1o : y1.oldest = x.oldest := by rw [← hy1]; exact ho.symm
  have y1k : y1.keys (x.latest + 1) = some ⟨c, d⟩ := by rw [← hy1, hv, ← my]; exact put_same _ _ _
  clear hx1 hy1
  -- the leader
  have r10 := Reach.own (maxR := maxR) (w := w) (y := y1) (ty := []) (enabled_idle x1t)
    (bMacro_b2a_ok (maxR := maxR) (init := w) (rest := []) (fr := 0) (a := c) (b := d) x1b
      (by rw [ry.round, x1l, hv]) (fun h => by rw [x1r] at h; cases h) x1c)
  have r11 := Reach.own (maxR := maxR) (w := w) (y := y1) (ty := []) (tx := [])
    (enabled_idle (x := { x1 with role := .leader, cons := del x1.cons (y.rmeta + 1), b := .aToggle c d }) x1t)
    (bMacro_aToggle (maxR := maxR) (init := w) (inn := []) (fr := 0)
      (x := { x1 with role := .leader, cons := del x1.cons (y.rmeta + 1), b := .aToggle c d }) rfl)
  have r := (r.trans r10).trans r11
  clear r10 r11
  simp only [List.append_nil] at r
  generalize hx2 : ({ x1 with role := .leader, cons := del x1.cons (y.rmeta + 1), b := .aCommit c d
                              tog := true } : EP) = x2 at r
  have x2t : x2.t = .idle := by rw [← hx2]; exact x1t
  have x2b : x2.b = .aCommit c d := by rw [← hx2]
  have x2l : x2.latest = x.latest := by rw [← hx2]; exact x1l
  have x2o : x2.oldest = x.oldest := by rw [← hx2]; exact x1o
  have x2m : x2.most = x.latest := by rw [← hx2]; exact x1m
  have x2r : x2.role = .leader := by rw [← hx2]
  clear hx2
  -- the end, for either message to the loser
  have finish : ∀ (x3 y3 : EP) (m : Msg), Reach maxR (two w x y [] []) (two w x3 y1 [] [m]) →
      bMacro maxR (!w) y1 [m] 0 = (y3, [], []) → x3.t = .idle → x3.b = .recv → x3.role = .leader → x3.latest = x.latest →
      x3.keys (x.latest + 1) = some ⟨c, d⟩ → y3.t = .idle → y3.latest = x.latest + 1 → y3.b = .lSend →
      y3.keys (x.latest + 1) = some ⟨c, d⟩ →
      ∃ x' y' t t', Reach maxR (two w x y [] []) (two w x' y' t t') ∧ x'.latest = x.latest + 1 ∧
        y'.latest = x.latest + 1 ∧ x'.keys (x.latest + 1) = some ⟨c, d⟩ ∧ y'.keys (x.latest + 1) = some ⟨c, d⟩ := by
    intro x3 y3 m r hm ht3 hb3 hr3 hl3 hk3 hyt hyl hyb hyk
    have s1 := Reach.peer (maxR := maxR) (w := w) (x := x3) (tx := []) (enabled_idle y1t) hm
    have s2 := Reach.peer (maxR := maxR) (w := w) (x := x3) (tx := []) (enabled_idle hyt)
      (bMacro_lSend (maxR := maxR) (init := !w) (inn := []) (fr := 0) hyb)
    have s3 := Reach.own (maxR := maxR) (w := w) (y := { y3 with b := .retain }) (ty := []) (enabled_idle ht3)
      (bMacro_leaderCanFinish (maxR := maxR) (init := w) (rest := []) (fr := 0) (v := y3.latest) hb3
        (by rw [hr3]; intro h; cases h) (by rw [hl3, hk3]; rfl) (by rw [hyl, hl3]))
    have r := ((r.trans s1).trans s2).trans s3
    refine ⟨_, _, _, _, r, ?_, hyl, hk3, hyk⟩
    dsimp only
    rw [hl3]
  have y1s : (y1.keys (y1.latest + 1)).isSome = true := by rw [y1l, y1k]; rfl
  by_cases hfull : (x2.most + 1) - x2.oldest + 1 ≥ maxR
  · have r12 := Reach.own (maxR := maxR) (w := w) (y := y1) (ty := []) (tx := []) (enabled_idle x2t)
      (bMacro_aCommit_full (maxR := maxR) (init := w) (inn := []) (fr := 0) x2b hfull)
    have r13 := Reach.own (maxR := maxR) (w := w) (y := y1) (ty := []) (tx := [])
      (enabled_idle (x := { x2 with most := x2.most + 1, keys := put x2.keys (x2.most + 1) ⟨c, d⟩
                                    b := .aDereg x2.oldest }) x2t)
      (bMacro_aDereg (maxR := maxR) (init := w) (inn := []) (fr := 0)
        (x := { x2 with most := x2.most + 1, keys := put x2.keys (x2.most + 1) ⟨c, d⟩, b := .aDereg x2.oldest })
        rfl (by dsimp only; omega) rfl)
    have r14 := Reach.own (maxR := maxR) (w := w) (y := y1) (ty := []) (tx := [])
      (enabled_idle (x := { x2 with most := x2.most + 1, oldest := x2.oldest + 1
                                    keys := del (put x2.keys (x2.most + 1) ⟨c, d⟩) x2.oldest
                                    b := .aSendTrunc x2.oldest }) x2t)
      (bMacro_aSendTrunc (maxR := maxR) (init := w) (inn := []) (fr := 0)
        (x := { x2 with most := x2.most + 1, oldest := x2.oldest + 1
                        keys := del (put x2.keys (x2.most + 1) ⟨c, d⟩) x2.oldest, b := .aSendTrunc x2.oldest })
        rfl)
    have r := ((r.trans r12).trans r13).trans r14
    refine finish _ _ (.truncate x2.oldest) r (bMacro_truncate (rest := []) y1b y1r (by omega) (by omega) (by omega) y1s)
      x2t rfl x2r x2l ?_ y1t ?_ rfl ?_
    · dsimp only
      rw [del_ne _ (by omega), x2m]
      exact put_same _ _ _
    · dsimp only; rw [y1l]
    · dsimp only
      rw [del_ne _ (by omega)]
      exact y1k
  · have r12 := Reach.own (maxR := maxR) (w := w) (y := y1) (ty := []) (tx := []) (enabled_idle x2t)
      (bMacro_aCommit_room (maxR := maxR) (init := w) (inn := []) (fr := 0) x2b hfull)
    have r13 := Reach.own (maxR := maxR) (w := w) (y := y1) (ty := []) (tx := [])
      (enabled_idle (x := { x2 with most := x2.most + 1, keys := put x2.keys (x2.most + 1) ⟨c, d⟩
                                    b := .aSendLoser }) x2t)
      (bMacro_aSendLoser (maxR := maxR) (init := w) (inn := []) (fr := 0)
        (x := { x2 with most := x2.most + 1, keys := put x2.keys (x2.most + 1) ⟨c, d⟩, b := .aSendLoser }) rfl)
    have r := (r.trans r12).trans r13
    refine finish _ _ .loserCanFinish r (bMacro_loserCanFinish (rest := []) y1b y1r y1s) x2t rfl x2r x2l ?_ y1t ?_ rfl ?_
    · dsimp only
      rw [x2m]
      exact put_same _ _ _
    · dsimp only; rw [y1l]
    · exact y1k

/-- Whatever has happened before, once nothing is under way a re-key by either endpoint can complete: both move on by
one version, to the ratchet both have contributed to. -/
theorem C83_rekeys_partial {maxR : Nat} (hR : 3 ≤ maxR) (v : Nat) (k : Key) (acts : List Act) (w : Bool) (c d : Nat)
    (hr : AtRest (run (coopStep maxR) (start v k) acts)) :
    let s := run (coopStep maxR) (start v k) acts
    ∃ more, let s' := run (coopStep maxR) s more
      s'.i.latest = s.i.latest + 1 ∧ s'.n.latest = s.n.latest + 1 ∧ s'.i.keys (s.i.latest + 1) = some ⟨c, d⟩ ∧
        s'.n.keys (s.i.latest + 1) = some ⟨c, d⟩ := by
  intro s
  have hinv : Inv maxR s := inv_run hR (inv_start maxR v k) acts
  obtain ⟨r1, r2, hl, hk⟩ := inv_rest hinv hr
  have hw := hinv.win
  have ho : s.i.oldest = s.n.oldest := by
    have a := (hw.hI s.i.oldest).mpr ⟨Nat.le_refl _, by have := hw.loI; have := r1.newest; omega⟩
    have b := (hw.hN s.n.oldest).mpr ⟨Nat.le_refl _, by have := hw.loN; have := r2.newest; omega⟩
    rw [hk] at a
    rw [← hk] at b
    have a' := (hw.hN _).mp a
    have b' := (hw.hI _).mp b
    omega
  obtain ⟨eI, eN, tI, tN, bI, bN⟩ := hr
  cases w with
  | true =>
    obtain ⟨x', y', t, t', ⟨more, hm⟩, h1, h2, h3, h4⟩ := ready_rekeys hR true c d r1 r2 tI tN bI bN hl hw.hI hw.hN ho
      hw.loI
    have es : two true s.i s.n [] [] = s := by
      have e1 : s.toI = [] := eI
      have e2 : s.toN = [] := eN
      rw [show two true s.i s.n [] [] = ⟨s.i, s.n, [], []⟩ from rfl]
      conv => rhs; rw [show s = ⟨s.i, s.n, s.toI, s.toN⟩ from rfl, e1, e2]
    rw [es] at hm
    refine ⟨more, ?_⟩
    dsimp only
    rw [hm]
    exact ⟨h1, by rw [← hl]; exact h2, h3, h4⟩
  | false =>
    obtain ⟨x', y', t, t', ⟨more, hm⟩, h1, h2, h3, h4⟩ := ready_rekeys hR false c d r2 r1 tN tI bN bI hl.symm hw.hN hw.hI
      ho.symm hw.loN
    have es : two false s.n s.i [] [] = s := by
      have e1 : s.toI = [] := eI
      have e2 : s.toN = [] := eN
      rw [show two false s.n s.i [] [] = ⟨s.i, s.n, [], []⟩ from rfl]
      conv => rhs; rw [show s = ⟨s.i, s.n, s.toI, s.toN⟩ from rfl, e1, e2]
    rw [es] at hm
    refine ⟨more, ?_⟩
    dsimp only
    rw [hm, hl]
    exact ⟨h2, h1, h4, h3⟩

end Verif.Rekey

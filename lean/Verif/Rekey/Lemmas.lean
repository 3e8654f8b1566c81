import Verif.Rekey.StageN
import Verif.Rekey.StageI
/-
The invariant holds in every state the cooperative scheduler reaches; the fuel of the macro steps suffices; macro steps
are sequences of micro-steps.
-/
namespace Verif.Rekey

theorem inv_start (maxR v : Nat) (k : Key) : Inv maxR (start v k) := by
  have hw : ∀ j, ((freshEP v k).keys j).isSome = true ↔ v ≤ j ∧ j ≤ v := by
    intro j
    simp only [freshEP, put]
    by_cases h : j = v
    · simp [h]
    · simp [h]; omega
  refine ⟨⟨hw, hw, ?_, Nat.le_refl _, Nat.le_refl _⟩, .quiet ⟨rfl, rfl, rfl, rfl, fun _ _ => rfl, fun _ => rfl,
    Or.inl ⟨rfl, rfl, rfl⟩, .none rfl rfl rfl rfl (Or.inl rfl) rfl, ?_, ?_⟩⟩
  · intro j p q hp hq
    have : some p = some q := by rw [← hp, ← hq]; rfl
    injection this
  · refine ⟨Nat.le_refl _, fun _ _ => rfl, fun _ _ j _ hj => absurd rfl hj, .rest rfl (Old.nil _) (fun _ => ?_)⟩
    exact ⟨rfl, rfl, fun _ => rfl⟩
  · simp [start, freshEP, nskip, inProc, budget]

theorem inv_step {maxR : Nat} (hR : 3 ≤ maxR) {s : Sys} (h : Inv maxR s) (a : Act) : Inv maxR (coopStep maxR s a) := by
  obtain ⟨hw, hs⟩ := h
  cases hs with
  | quiet h => exact h.keep hw a
  | bob h => exact h.keep hw a
  | ans h => exact h.keep hw a
  | lead h => exact h.keep hR hw a
  | fwd h => exact h.keep hw a
  | ack h => exact h.keep hw a
  | cf h => exact h.keep hw a
  | ibob h => exact h.keep hw a
  | ians h => exact h.keep hw a
  | ilead h => exact h.keep hR hw a
  | ifwd h => exact h.keep hw a
  | iack h => exact h.keep hw a
  | icf h => exact h.keep hw a

theorem inv_run {maxR : Nat} (hR : 3 ≤ maxR) {s : Sys} (h : Inv maxR s) (acts : List Act) :
    Inv maxR (run (coopStep maxR) s acts) := by
  induction acts generalizing s with
  | nil => exact h
  | cons a as ih => exact ih (inv_step hR h a)

theorem run_append (step : Sys → Act → Sys) (s : Sys) (as bs : List Act) :
    run step s (as ++ bs) = run step (run step s as) bs := by
  induction as generalizing s with
  | nil => rfl
  | cons a as ih => exact ih _

/-! ### Fuel -/

/-- Micro-steps to the next interruption point. -/
def bRank : BPc → Nat
  | .roundStart => 1
  | .roundEnd => 2
  | .toggleOff => 3
  | .roleIdle => 4
  | .errSync => 2
  | .errRole => 3
  | .stale _ => 1
  | .a2bValidate _ _ => 2
  | .a2bBarrier _ _ _ => 3
  | .bRole _ _ => 1
  | .b2aTake _ _ _ => 1
  | .b2aHas _ _ _ => 2
  | .b2aRole _ _ _ => 3
  | .b2aMeta _ _ _ => 4
  | .lRemove => 1
  | .lSync => 2
  | .lBump => 3
  | .lRole _ => 4
  | .fSync _ => 1
  | .fBump _ => 2
  | .fRole _ => 3
  | _ => 0

def tRank : TPc → Nat
  | .declared _ => 6
  | .role _ => 5
  | .top _ => 4
  | .version _ => 3
  | .next _ => 2
  | .snap _ => 1
  | .store _ => 2
  | .toggle _ => 1
  | .rSync _ => 3
  | .rRemove _ => 2
  | .rOff _ => 1
  | _ => 0

theorem skip_rank (x : EP) : bRank (skip x).b = 0 := by
  unfold skip; split <;> rfl

theorem bRank_lt (maxR : Nat) (init : Bool) (x : EP) (h : bPoint x.b = false) :
    bRank (bLocal maxR init x).b < bRank x.b := by
  cases hb : x.b <;> rw [hb] at h <;> simp only [bPoint] at h <;> first | (exact absurd h (by decide)) | skip
  all_goals simp only [bLocal, hb]
  all_goals first | (simp only [bRank]; omega) | skip
  all_goals repeat' split
  all_goals first | (rw [skip_rank]; simp only [bRank]; omega) | (simp only [bRank]; omega)

theorem bSettle_point (maxR : Nat) (init : Bool) : ∀ (n : Nat) (x : EP), bRank x.b ≤ n →
    bPoint (bSettle maxR init n x).b = true := by
  intro n
  induction n with
  | zero =>
    intro x hx
    rw [bSettle]
    cases hp : bPoint x.b with
    | true => rfl
    | false => have := bRank_lt maxR init x hp; omega
  | succ n ih =>
    intro x hx
    rw [bSettle]
    cases hp : bPoint x.b with
    | true => simpa using hp
    | false =>
      have := bRank_lt maxR init x hp
      simpa using ih _ (by omega)

/-- The fuel of a step of the background task suffices. -/
theorem bMacro_point (maxR : Nat) (init : Bool) (x : EP) (inn : List Msg) (fr : Nat) :
    bPoint (bMacro maxR init x inn fr).1.b = true := by
  unfold bMacro
  apply bSettle_point
  have : ∀ p : BPc, bRank p ≤ bFuel := by intro p; cases p <;> simp [bRank, bFuel]
  exact this _

theorem tRank_lt (x : EP) (fr : Nat) (h : tPoint x.t = false) : tRank (tLocal x fr).t < tRank x.t := by
  cases hb : x.t <;> rw [hb] at h <;> simp only [tPoint] at h <;> first | (exact absurd h (by decide)) | skip
  all_goals simp only [tLocal, hb]
  all_goals first | (simp only [tRank]; omega) | skip
  all_goals repeat' split
  all_goals (simp only [tRank]; omega)

theorem tSettle_point (fr : Nat) : ∀ (n : Nat) (x : EP), tRank x.t ≤ n → tPoint (tSettle fr n x).t = true := by
  intro n
  induction n with
  | zero =>
    intro x hx
    rw [tSettle]
    cases hp : tPoint x.t with
    | true => rfl
    | false => have := tRank_lt x fr hp; omega
  | succ n ih =>
    intro x hx
    rw [tSettle]
    cases hp : tPoint x.t with
    | true => simpa using hp
    | false =>
      have := tRank_lt x fr hp
      simpa using ih _ (by omega)

/-- The fuel of a step of the trigger task suffices. -/
theorem tMacro_point (x : EP) (fr : Nat) : tPoint (tMacro x fr).1.t = true := by
  unfold tMacro
  apply tSettle_point
  have : ∀ p : TPc, tRank p ≤ tFuel := by intro p; cases p <;> simp [tRank, tFuel]
  exact this _

/-! ### Cooperative runs are preemptive runs -/

theorem bStep_local {maxR : Nat} {init : Bool} {x : EP} (inn : List Msg) (fr : Nat) (h : bPoint x.b = false) :
    bStep maxR init x inn fr = (bLocal maxR init x, inn, []) := by
  cases hb : x.b <;> rw [hb] at h <;> simp only [bPoint] at h <;>
    first | (exact absurd h (by decide)) | (simp only [bStep, hb])

theorem tStep_local {x : EP} (fr : Nat) (h : tPoint x.t = false) : tStep x fr = (tLocal x fr, []) := by
  cases hb : x.t <;> rw [hb] at h <;> simp only [tPoint] at h <;>
    first | (exact absurd h (by decide)) | (simp only [tStep, hb])

theorem settleI (maxR fr : Nat) : ∀ (k : Nat) (s : Sys), ∃ m, run (fineStep maxR) s (List.replicate m (.bg true fr))
    = { s with i := bSettle maxR true k s.i } := by
  intro k
  induction k with
  | zero => intro s; exact ⟨0, rfl⟩
  | succ k ih =>
    intro s
    cases hp : bPoint s.i.b with
    | true => exact ⟨0, by rw [bSettle_stop hp]; rfl⟩
    | false =>
      obtain ⟨m, hm⟩ := ih { s with i := bLocal maxR true s.i }
      refine ⟨m + 1, ?_⟩
      rw [bSettle_next hp rfl, List.replicate_succ, run]
      have : fineStep maxR s (.bg true fr) = { s with i := bLocal maxR true s.i } := by
        simp only [fineStep, bStep_local _ _ hp, List.append_nil]
      rw [this]
      exact hm

theorem settleN (maxR fr : Nat) : ∀ (k : Nat) (s : Sys), ∃ m, run (fineStep maxR) s (List.replicate m (.bg false fr))
    = { s with n := bSettle maxR false k s.n } := by
  intro k
  induction k with
  | zero => intro s; exact ⟨0, rfl⟩
  | succ k ih =>
    intro s
    cases hp : bPoint s.n.b with
    | true => exact ⟨0, by rw [bSettle_stop hp]; rfl⟩
    | false =>
      obtain ⟨m, hm⟩ := ih { s with n := bLocal maxR false s.n }
      refine ⟨m + 1, ?_⟩
      rw [bSettle_next hp rfl, List.replicate_succ, run]
      have : fineStep maxR s (.bg false fr) = { s with n := bLocal maxR false s.n } := by
        simp only [fineStep, bStep_local _ _ hp, List.append_nil]
      rw [this]
      exact hm

theorem tSettle_stop {fr n : Nat} {x : EP} (hp : tPoint x.t = true) : tSettle fr n x = x := by
  cases n with
  | zero => rfl
  | succ n => rw [tSettle, hp]; rfl

theorem tSettle_next {fr n : Nat} {x : EP} (hp : tPoint x.t = false) :
    tSettle fr (n + 1) x = tSettle fr n (tLocal x fr) := by
  rw [tSettle, hp]; rfl

theorem settleTI (maxR fr : Nat) : ∀ (k : Nat) (s : Sys), ∃ m, run (fineStep maxR) s (List.replicate m (.trig true fr))
    = { s with i := tSettle fr k s.i } := by
  intro k
  induction k with
  | zero => intro s; exact ⟨0, rfl⟩
  | succ k ih =>
    intro s
    cases hp : tPoint s.i.t with
    | true => exact ⟨0, by rw [tSettle_stop hp]; rfl⟩
    | false =>
      obtain ⟨m, hm⟩ := ih { s with i := tLocal s.i fr }
      refine ⟨m + 1, ?_⟩
      rw [tSettle_next hp, List.replicate_succ, run]
      have : fineStep maxR s (.trig true fr) = { s with i := tLocal s.i fr } := by
        simp only [fineStep, tStep_local _ hp, List.append_nil]
      rw [this]
      exact hm

theorem settleTN (maxR fr : Nat) : ∀ (k : Nat) (s : Sys), ∃ m, run (fineStep maxR) s (List.replicate m (.trig false fr))
    = { s with n := tSettle fr k s.n } := by
  intro k
  induction k with
  | zero => intro s; exact ⟨0, rfl⟩
  | succ k ih =>
    intro s
    cases hp : tPoint s.n.t with
    | true => exact ⟨0, by rw [tSettle_stop hp]; rfl⟩
    | false =>
      obtain ⟨m, hm⟩ := ih { s with n := tLocal s.n fr }
      refine ⟨m + 1, ?_⟩
      rw [tSettle_next hp, List.replicate_succ, run]
      have : fineStep maxR s (.trig false fr) = { s with n := tLocal s.n fr } := by
        simp only [fineStep, tStep_local _ hp, List.append_nil]
      rw [this]
      exact hm

/-- A step of the cooperative scheduler is some number of micro-steps of one task. -/
theorem coop_fine (maxR : Nat) (s : Sys) (a : Act) :
    ∃ m, coopStep maxR s a = run (fineStep maxR) s (List.replicate m a) := by
  rcases a with ⟨_ | _, fr⟩ | ⟨_ | _, fr⟩
  · by_cases he : bgEnabled s.n = true
    · obtain ⟨m, hm⟩ := settleN maxR fr bFuel (fineStep maxR s (.bg false fr))
      refine ⟨m + 1, ?_⟩
      rw [List.replicate_succ, run, hm]
      simp only [coopStep, he, if_true, bMacro, fineStep]
    · exact ⟨0, by simp only [coopStep, he, List.replicate_zero, run]; rfl⟩
  · by_cases he : bgEnabled s.i = true
    · obtain ⟨m, hm⟩ := settleI maxR fr bFuel (fineStep maxR s (.bg true fr))
      refine ⟨m + 1, ?_⟩
      rw [List.replicate_succ, run, hm]
      simp only [coopStep, he, if_true, bMacro, fineStep]
    · exact ⟨0, by simp only [coopStep, he, List.replicate_zero, run]; rfl⟩
  · obtain ⟨m, hm⟩ := settleTN maxR fr tFuel (fineStep maxR s (.trig false fr))
    refine ⟨m + 1, ?_⟩
    rw [List.replicate_succ, run, hm]
    simp only [coopStep, tMacro, fineStep]
  · obtain ⟨m, hm⟩ := settleTI maxR fr tFuel (fineStep maxR s (.trig true fr))
    refine ⟨m + 1, ?_⟩
    rw [List.replicate_succ, run, hm]
    simp only [coopStep, tMacro, fineStep]

/-- Every schedule of the cooperative scheduler is one of the preemptive scheduler. -/
theorem coop_run_fine (maxR : Nat) (s : Sys) (acts : List Act) :
    ∃ acts', run (coopStep maxR) s acts = run (fineStep maxR) s acts' := by
  induction acts generalizing s with
  | nil => exact ⟨[], rfl⟩
  | cons a as ih =>
    obtain ⟨m, hm⟩ := coop_fine maxR s a
    obtain ⟨as', h'⟩ := ih (coopStep maxR s a)
    refine ⟨List.replicate m a ++ as', ?_⟩
    rw [run_append, ← hm]
    exact h'

/-! ### Errors are seen -/

theorem skip_failed (x : EP) : (skip x).b ≠ .errRole ∧ (skip x).b ≠ .errSync := by
  unfold skip; split <;> constructor <;> intro h <;> cases h

theorem bLocal_failed (maxR : Nat) (init : Bool) (x : EP)
    (h : x.b ≠ .errToggle ∧ x.b ≠ .errRole ∧ x.b ≠ .errSync) :
    (bLocal maxR init x).b ≠ .errRole ∧ (bLocal maxR init x).b ≠ .errSync := by
  unfold bLocal
  split
  all_goals repeat' split
  all_goals first
    | exact skip_failed _
    | exact ⟨h.2.1, h.2.2⟩
    | (rename_i h'; exact absurd h' h.1)
    | (rename_i h'; exact absurd h' h.2.1)
    | (constructor <;> intro h' <;> cases h')

theorem bStep_failed (maxR : Nat) (init : Bool) (x : EP) (inn : List Msg) (fr : Nat)
    (h : x.b ≠ .errToggle ∧ x.b ≠ .errRole ∧ x.b ≠ .errSync) :
    (bStep maxR init x inn fr).1.b ≠ .errRole ∧ (bStep maxR init x inn fr).1.b ≠ .errSync := by
  unfold bStep
  split
  · split
    · exact ⟨h.2.1, h.2.2⟩
    · rename_i m _
      cases m <;> constructor <;> intro h' <;> cases h'
  all_goals first
    | exact bLocal_failed maxR init x h
    | (constructor <;> intro h' <;> cases h')

theorem bSettle_failed (maxR : Nat) (init : Bool) : ∀ (n : Nat) (x : EP), x.b ≠ .errRole ∧ x.b ≠ .errSync →
    (bSettle maxR init n x).b ≠ .errRole ∧ (bSettle maxR init n x).b ≠ .errSync := by
  intro n
  induction n with
  | zero => intro x h; exact h
  | succ n ih =>
    intro x h
    cases hp : bPoint x.b with
    | true => rw [bSettle_stop hp]; exact h
    | false =>
      rw [bSettle_next hp rfl]
      refine ih _ (bLocal_failed maxR init x ⟨?_, h⟩)
      intro e
      rw [e] at hp
      cases hp

theorem bSettle_add (maxR : Nat) (init : Bool) (j : Nat) : ∀ (k : Nat) (x : EP),
    bSettle maxR init (k + j) x = bSettle maxR init j (bSettle maxR init k x) := by
  intro k
  induction k with
  | zero => intro x; rw [Nat.zero_add]; rfl
  | succ k ih =>
    intro x
    cases hp : bPoint x.b with
    | true => rw [bSettle_stop hp, bSettle_stop hp, bSettle_stop hp]
    | false =>
      rw [show k + 1 + j = (k + j) + 1 by omega, bSettle_next hp rfl, bSettle_next hp rfl, ih]

/-! ### The usable version never goes back -/

theorem skip_latest (x : EP) : (skip x).latest = x.latest := by
  unfold skip; split <;> rfl

theorem dereg_latest {maxR : Nat} {x x' : EP} {v : Nat} (h : dereg maxR x v = some x') : x'.latest = x.latest := by
  unfold dereg at h
  split at h
  · cases h
  · split at h
    · cases h
    · cases h; rfl

theorem bLocal_latest (maxR : Nat) (init : Bool) (x : EP) : x.latest ≤ (bLocal maxR init x).latest := by
  unfold bLocal
  split
  all_goals repeat' split
  all_goals first
    | (dsimp only [commit]; omega)
    | (rw [skip_latest]; simp)
    | (rename_i h; dsimp only; rw [dereg_latest h]; omega)
    | omega

theorem bStep_latest (maxR : Nat) (init : Bool) (x : EP) (inn : List Msg) (fr : Nat) :
    x.latest ≤ (bStep maxR init x inn fr).1.latest := by
  unfold bStep
  split
  · split <;> simp
  all_goals first | exact bLocal_latest maxR init x | simp [commit]

theorem tStep_latest (x : EP) (fr : Nat) : (tStep x fr).1.latest = x.latest := by
  unfold tStep
  split
  · rfl
  · unfold tLocal
    dsimp only
    split
    all_goals repeat' split
    all_goals rfl

theorem fine_latest (maxR : Nat) (s : Sys) (a : Act) :
    s.i.latest ≤ (fineStep maxR s a).i.latest ∧ s.n.latest ≤ (fineStep maxR s a).n.latest := by
  rcases a with ⟨_ | _, fr⟩ | ⟨_ | _, fr⟩
  · exact ⟨Nat.le_refl _, bStep_latest ..⟩
  · exact ⟨bStep_latest .., Nat.le_refl _⟩
  · exact ⟨Nat.le_refl _, Nat.le_of_eq (tStep_latest ..).symm⟩
  · exact ⟨Nat.le_of_eq (tStep_latest ..).symm, Nat.le_refl _⟩

theorem fine_run_latest (maxR : Nat) (s : Sys) (acts : List Act) :
    s.i.latest ≤ (run (fineStep maxR) s acts).i.latest ∧ s.n.latest ≤ (run (fineStep maxR) s acts).n.latest := by
  induction acts generalizing s with
  | nil => exact ⟨Nat.le_refl _, Nat.le_refl _⟩
  | cons a as ih =>
    have h1 := fine_latest maxR s a
    have h2 := ih (fineStep maxR s a)
    simp only [run]
    omega

end Verif.Rekey

import Verif.Rekey.Spec
import Verif.Rekey.Lemmas
/-
C34, C35, C36: agreement, availability and monotonicity of the versions of the two endpoints, under every schedule.
C82: no re-key fails, and nothing is left behind.

The theorems about `coopStep` hold for every toolset size of at least three (`MAX_RATCHETS_IN_MEMORY` is 6 or 32), every
list of scheduling decisions and every choice of contributions.  Under a preemptive scheduler C34 and C82 fail.
-/
namespace Verif.Rekey

variable {maxR : Nat}

/-! ### C34 -/

/-- Under cooperative scheduling the two endpoints hold the same ratchet for the same version, always.
Missing: a preemptive scheduler, for which it is false (`C34_counterexample_preemptive`). -/
theorem C34_coop_partial (hR : 3 ≤ maxR) (v : Nat) (k : Key) (acts : List Act) :
    SameRatchets (run (coopStep maxR) (start v k) acts) :=
  (inv_run hR (inv_start maxR v k) acts).win.agree

/-- A schedule of the preemptive scheduler. -/
def race : List Act := burst
  [(.trig true 1, 6), (.trig false 2, 12), (.bg true 3, 8), (.bg false 4, 8), (.bg true 5, 3), (.trig true 6, 2),
   (.bg true 7, 2), (.trig true 8, 4), (.bg true 9, 6), (.trig true 10, 12), (.bg false 11, 12), (.trig false 12, 6),
   (.bg false 13, 8), (.trig false 14, 6), (.bg true 15, 5)]

/-- Under a preemptive scheduler the endpoints can end up with different ratchets for version 2, each of them
committed: the trigger of the initiator sleeps between reading the toggle and declaring its version, across a whole
re-key. -/
theorem C34_counterexample_preemptive :
    ¬ SameRatchets (run (fineStep 32) (start 0 ⟨0, 0⟩) race) := by
  intro h
  have := h 2 ⟨12, 15⟩ ⟨10, 13⟩ (by decide +kernel) (by decide +kernel)
  exact absurd this (by decide)

/-- The same with the small toolset of debug builds. -/
theorem C34_counterexample_preemptive_small :
    ¬ SameRatchets (run (fineStep 6) (start 0 ⟨0, 0⟩) race) := by
  intro h
  have := h 2 ⟨12, 15⟩ ⟨10, 13⟩ (by decide +kernel) (by decide +kernel)
  exact absurd this (by decide)

/-- Cooperative schedules are among the preemptive ones. -/
theorem C34_coop_is_preemptive (v : Nat) (k : Key) (acts : List Act) :
    ∃ acts', run (coopStep maxR) (start v k) acts = run (fineStep maxR) (start v k) acts' :=
  coop_run_fine maxR (start v k) acts

/-- After every step of the cooperative scheduler the task that ran is at an interruption point. -/
theorem C34_coop_points (s : Sys) (fr : Nat) :
    (bgEnabled s.i = true → bPoint (coopStep maxR s (.bg true fr)).i.b = true) ∧
      (bgEnabled s.n = true → bPoint (coopStep maxR s (.bg false fr)).n.b = true) ∧
      tPoint (coopStep maxR s (.trig true fr)).i.t = true ∧ tPoint (coopStep maxR s (.trig false fr)).n.t = true := by
  refine ⟨fun h => ?_, fun h => ?_, tMacro_point .., tMacro_point ..⟩
  · simp only [coopStep, h, if_true]; exact bMacro_point ..
  · simp only [coopStep, h, if_true]; exact bMacro_point ..

/-! ### C36 -/

/-- The usable version of an endpoint never decreases, whatever the scheduler does, from any state. -/
theorem C36_monotone (s : Sys) (acts : List Act) :
    s.i.latest ≤ (run (fineStep maxR) s acts).i.latest ∧ s.n.latest ≤ (run (fineStep maxR) s acts).n.latest :=
  fine_run_latest maxR s acts

theorem C36_monotone_coop (s : Sys) (acts : List Act) :
    s.i.latest ≤ (run (coopStep maxR) s acts).i.latest ∧ s.n.latest ≤ (run (coopStep maxR) s acts).n.latest := by
  obtain ⟨acts', h⟩ := coop_run_fine maxR s acts
  rw [h]
  exact fine_run_latest maxR s acts'

theorem inv_close {s : Sys} (h : Inv maxR s) : Close s := by
  unfold Close
  cases h.stage with
  | quiet h => have := h.ver; omega
  | bob h => have := h.ver; omega
  | ans h => have := h.ver; omega
  | lead h => have := h.ver; omega
  | fwd h => have := h.ver; omega
  | ack h => have := h.ver; omega
  | cf h => have := h.ver; omega
  | ibob h => have := h.ver; omega
  | ians h => have := h.ver; omega
  | ilead h => have := h.ver; omega
  | ifwd h => have := h.ver; omega
  | iack h => have := h.ver; omega
  | icf h => have := h.ver; omega

/-- Under cooperative scheduling the usable versions never differ by more than one.
Missing: a preemptive scheduler. -/
theorem C36_close_partial (hR : 3 ≤ maxR) (v : Nat) (k : Key) (acts : List Act) :
    Close (run (coopStep maxR) (start v k) acts) :=
  inv_close (inv_run hR (inv_start maxR v k) acts)

/-! ### C35 -/

theorem inv_holds {s : Sys} (h : Inv maxR s) : PeerHolds s := by
  have hw := h.win
  suffices h' : (s.i.oldest ≤ s.n.latest ∧ s.n.latest ≤ s.i.most) ∧ (s.n.oldest ≤ s.i.latest ∧ s.i.latest ≤ s.n.most) by
    exact ⟨Option.isSome_iff_exists.mp ((hw.hI _).mpr h'.1), Option.isSome_iff_exists.mp ((hw.hN _).mpr h'.2)⟩
  have hI := hw.loI
  have hN := hw.loN
  cases h.stage with
  | quiet h => have := h.ver; have := h.mI; have := h.mN; omega
  | bob h =>
    have := h.ver; have := h.mN
    obtain ⟨c, _, an⟩ := h.an
    have := an.most
    omega
  | ans h =>
    have := h.ver; have := h.mN
    obtain ⟨c, b, x, y, _, an, _⟩ := h.an
    have := an.hm
    omega
  | lead h =>
    have := h.ver
    obtain ⟨c, b, an, ld⟩ := h.an
    have := an.hm
    rcases ld with ⟨_, hm, _⟩ | ⟨o, _, hm, _⟩ | ⟨o, _, hm, _⟩ | ⟨_, hm, _⟩ <;> omega
  | fwd h =>
    have := h.ver; have := h.mN
    obtain ⟨c, b, an⟩ := h.an
    have := an.hm
    omega
  | ack h => have := h.ver; have := h.mI; have := h.mN; have := h.old; omega
  | cf h => have := h.ver; have := h.mI; have := h.mN; have := h.old; omega
  | ibob h =>
    have := h.ver; have := h.mI
    obtain ⟨c, _, an, _⟩ := h.an
    have := an.most
    omega
  | ians h =>
    have := h.ver; have := h.mI
    obtain ⟨c, b, _, an, _⟩ := h.an
    have := an.hm
    omega
  | ilead h =>
    have := h.ver
    obtain ⟨c, b, an, ld⟩ := h.an
    have := an.hm
    rcases ld with ⟨_, hm, _⟩ | ⟨o, _, hm, _⟩ | ⟨o, _, hm, _⟩ | ⟨_, hm, _⟩ <;> omega
  | ifwd h =>
    have := h.ver; have := h.mI
    obtain ⟨c, b, an⟩ := h.an
    have := an.hm
    omega
  | iack h => have := h.ver; have := h.mI; have := h.mN; have := h.old; omega
  | icf h => have := h.ver; have := h.mI; have := h.mN; have := h.old; omega

/-- Under cooperative scheduling each endpoint always holds the version its peer encrypts with.
Missing: a preemptive scheduler; packets under way are in `Verif.Rekey.Data`. -/
theorem C35_peer_holds_partial (hR : 3 ≤ maxR) (v : Nat) (k : Key) (acts : List Act) :
    PeerHolds (run (coopStep maxR) (start v k) acts) :=
  inv_holds (inv_run hR (inv_start maxR v k) acts)

theorem same_key {s : Sys} (hinv : Inv maxR s) :
    (∃ p, s.i.keys s.i.latest = some p ∧ s.n.keys s.i.latest = some p) ∧
      (∃ p, s.n.keys s.n.latest = some p ∧ s.i.keys s.n.latest = some p) := by
  obtain ⟨⟨p, hp⟩, ⟨q, hq⟩⟩ := inv_holds hinv
  have kq := (hinv.win.hN _).mp (by rw [hq]; rfl)
  have kp := (hinv.win.hI _).mp (by rw [hp]; rfl)
  have own : (s.i.keys s.i.latest).isSome = true ∧ (s.n.keys s.n.latest).isSome = true := by
    have hI := hinv.win.loI
    have hN := hinv.win.loN
    have : s.i.latest ≤ s.i.most ∧ s.n.latest ≤ s.n.most := by
      cases hinv.stage with
      | quiet h => have := h.ver; have := h.mI; have := h.mN; omega
      | bob h =>
        have := h.ver; have := h.mN
        omega
      | ans h =>
        have := h.ver; have := h.mN
        omega
      | lead h =>
        have := h.ver
        omega
      | fwd h =>
        have := h.ver; have := h.mN
        omega
      | ack h => have := h.ver; have := h.mI; have := h.mN; omega
      | cf h => have := h.ver; have := h.mI; have := h.mN; omega
      | ibob h => have := h.ver; have := h.mI; omega
      | ians h => have := h.ver; have := h.mI; omega
      | ilead h => have := h.ver; omega
      | ifwd h => have := h.ver; have := h.mI; omega
      | iack h => have := h.ver; have := h.mI; have := h.mN; omega
      | icf h => have := h.ver; have := h.mI; have := h.mN; omega
    exact ⟨hinv.win.keyI this.1, hinv.win.keyN this.2⟩
  obtain ⟨p', hp'⟩ := Option.isSome_iff_exists.mp own.1
  obtain ⟨q', hq'⟩ := Option.isSome_iff_exists.mp own.2
  refine ⟨⟨p', hp', ?_⟩, ⟨q', hq', ?_⟩⟩
  · rw [hinv.win.agree _ _ _ hp' hq]; exact hq
  · rw [← hinv.win.agree _ _ _ hp hq']; exact hp

/-- Both together: what one endpoint encrypts with, the other decrypts with. -/
theorem C35_same_key_partial (hR : 3 ≤ maxR) (v : Nat) (k : Key) (acts : List Act) :
    let s := run (coopStep maxR) (start v k) acts
    (∃ p, s.i.keys s.i.latest = some p ∧ s.n.keys s.i.latest = some p) ∧
      (∃ p, s.n.keys s.n.latest = some p ∧ s.i.keys s.n.latest = some p) :=
  same_key (inv_run hR (inv_start maxR v k) acts)

/-! ### C82 -/

theorem inv_ok {s : Sys} (h : Inv maxR s) : ¬ Failed s.i ∧ ¬ Failed s.n := by
  have rest : ∀ x : EP, Rest x → ¬ Failed x := by
    rintro x (⟨h, _⟩ | ⟨h, _⟩) <;> simp [Failed, h]
  have busy : ∀ x : EP, Busy x → ¬ Failed x := by
    rintro x ⟨h | ⟨a, h⟩ | h, _⟩ <;> simp [Failed, h]
  have recv : ∀ x : EP, x.b = .recv → ¬ Failed x := by
    intro x h; simp [Failed, h]
  have answering : ∀ v c (x : EP), Answering v c x → ¬ Failed x := by
    rintro v c x (⟨h | h, _⟩ | ⟨b, h, _⟩ | ⟨b, h, _⟩) <;> simp [Failed, h]
  have leading : ∀ v c b (x y : EP), Leading maxR v c b x y → ¬ Failed x := by
    rintro v c b x y (⟨h | h, _⟩ | ⟨o, h, _⟩ | ⟨o, h, _⟩ | ⟨h, _⟩) <;> simp [Failed, h]
  have np : ∀ v (x : EP) l, NP v x l → ¬ Failed x := by
    intro v x l h
    cases h with
    | none _ _ _ _ h => rcases h with h | ⟨a, h⟩ <;> simp [Failed, h]
    | fin _ _ _ h => simp [Failed, h]
    | t8 _ _ _ _ _ h => exact busy x h
    | t11 _ _ _ _ _ h => exact busy x h
    | t15 _ _ _ _ _ h => exact busy x h
    | out _ _ _ _ _ h => exact busy x h
  cases h.stage with
  | quiet h => exact ⟨rest _ h.hI, np _ _ _ h.np⟩
  | bob h => obtain ⟨c, o, an⟩ := h.an; exact ⟨answering _ _ _ an, busy _ o.hb⟩
  | ans h => obtain ⟨c, b, x, y, o, an, _⟩ := h.an; exact ⟨recv _ an.hb, busy _ o.hb⟩
  | lead h => obtain ⟨c, b, an, ld⟩ := h.an; exact ⟨recv _ an.hb, leading _ _ _ _ _ ld⟩
  | fwd h => obtain ⟨c, b, an⟩ := h.an; exact ⟨recv _ an.hb, recv _ h.bN⟩
  | ack h => exact ⟨by simp [Failed, h.bI], recv _ h.bN⟩
  | cf h => exact ⟨rest _ h.hI, recv _ h.bN⟩
  | ibob h => obtain ⟨c, _, an, _⟩ := h.an; exact ⟨recv _ h.bI, answering _ _ _ an⟩
  | ians h => obtain ⟨c, b, _, an, _⟩ := h.an; exact ⟨recv _ h.bI, recv _ an.hb⟩
  | ilead h => obtain ⟨c, b, an, ld⟩ := h.an; exact ⟨leading _ _ _ _ _ ld, recv _ an.hb⟩
  | ifwd h => obtain ⟨c, b, an⟩ := h.an; exact ⟨recv _ h.bI, recv _ an.hb⟩
  | iack h => exact ⟨recv _ h.bI, by simp [Failed, h.bN]⟩
  | icf h => exact ⟨recv _ h.bI, rest _ h.hN⟩

/-- Under cooperative scheduling no call of `rekey` returns an error, at either endpoint.
Missing: a preemptive scheduler, for which it is false (`C82_counterexample_error`). -/
theorem C82_no_error_partial (hR : 3 ≤ maxR) (v : Nat) (k : Key) (acts : List Act) :
    ¬ Failed (run (coopStep maxR) (start v k) acts).i ∧ ¬ Failed (run (coopStep maxR) (start v k) acts).n :=
  inv_ok (inv_run hR (inv_start maxR v k) acts)

/-- An error during a step of the background task is still there when the step ends, so none is missed. -/
theorem C82_error_is_seen (init : Bool) (x : EP) (inn : List Msg) (fr k : Nat) (hk : k ≤ bFuel) (hx : ¬ Failed x)
    (h : Failed (bSettle maxR init k (bStep maxR init x inn fr).1)) : Failed (bMacro maxR init x inn fr).1 := by
  have hx' : x.b ≠ .errToggle ∧ x.b ≠ .errRole ∧ x.b ≠ .errSync :=
    ⟨fun e => hx (Or.inl e), fun e => hx (Or.inr (Or.inl e)), fun e => hx (Or.inr (Or.inr e))⟩
  have h' := bSettle_failed maxR init k _ (bStep_failed maxR init x inn fr hx')
  have e : (bSettle maxR init k (bStep maxR init x inn fr).1).b = .errToggle := by
    rcases h with h | h | h
    · exact h
    · exact absurd h h'.1
    · exact absurd h h'.2
  obtain ⟨j, hj⟩ := Nat.exists_eq_add_of_le hk
  unfold bMacro
  rw [hj]
  dsimp only
  rw [bSettle_add, bSettle_stop (by rw [e]; rfl)]
  exact h

theorem inv_rest {s : Sys} (h : Inv maxR s) (hr : AtRest s) :
    ReadyEP s.i ∧ ReadyEP s.n ∧ s.i.latest = s.n.latest ∧ ∀ v, s.i.keys v = s.n.keys v := by
  obtain ⟨eI, eN, tI, tN, bI, bN⟩ := hr
  cases h.stage with
  | quiet h' =>
    have hv := h'.ver
    have np := h'.np
    have nz := h'.nz
    rw [eN, inProc_recv bN] at nz
    have busy : s.n.declared = s.n.latest ∧ s.n.tog = false ∧ s.n.role = .idle ∧ s.n.cons (s.n.latest + 1) = none := by
      rw [eI] at np
      cases np with
      | none ht hg hd hc hb hr => exact ⟨hd, hg, hr, hc⟩
      | fin _ _ _ h => rw [bN] at h; cases h
      | t8 _ h => rw [tN] at h; cases h
      | t11 _ h => rw [tN] at h; cases h
      | t15 _ h => rw [tN] at h; cases h
    have hf : Free s.n := ⟨tN, busy.1⟩
    have hcl : Clean s.i := by
      rcases nz.st with ⟨ht', ho, hc'⟩ | ⟨a, pre, ht', htr, _⟩ | ⟨c, ht', _⟩ |
        ⟨c, ht', _⟩ | ⟨c, ht', _⟩ | ⟨u, c, hu, ht', _⟩ | ⟨u, c, hu, ht', _⟩ |
        ⟨u, c, hu, ht', _⟩ | ⟨u, c, hu, ht', _⟩
      · exact hc' hf
      · exact absurd htr (by simp)
      all_goals (rw [tI] at ht'; cases ht')
    have hI : s.i.role = .idle ∧ s.i.rmeta = s.i.latest := by
      rcases h'.hI with h | h
      · exact h.2
      · rw [bI] at h; cases h.1
    have hw := h.win
    refine ⟨⟨hI.1, hcl.2.2 bI, hcl.1, by rw [h'.mI, hv], hI.2, ?_⟩, ⟨busy.2.2.1, busy.2.1, busy.1, h'.mN, ?_, ?_⟩, hv, ?_⟩
    · intro k
      rcases Nat.lt_or_ge s.i.latest k with hlt | hge
      · by_cases hk : k = s.i.latest + 1
        · rw [hk]; exact hcl.2.1
        · exact nz.hi k (by omega)
      · apply Classical.byContradiction
        intro hne
        obtain ⟨u, c, e, _⟩ := nz.lo hf bI k hge hne
        rw [tI] at e; cases e
    · exact h'.rm (by rw [bN]; intro h; cases h)
    · intro k
      by_cases hk : k = s.n.latest + 1
      · rw [hk]; exact busy.2.2.2
      · exact h'.cN k hk
    · intro k
      have e : (s.i.keys k).isSome = (s.n.keys k).isSome := by
        apply Bool.eq_iff_iff.mpr
        rw [hw.hI, hw.hN, h'.old, h'.mI, h'.mN]
      cases hk : s.i.keys k with
      | none => rw [hk] at e; cases hk' : s.n.keys k with
        | none => rfl
        | some q => rw [hk'] at e; cases e
      | some p => rw [hk] at e; cases hk' : s.n.keys k with
        | none => rw [hk'] at e; cases e
        | some q => rw [hw.agree k p q hk hk']
  | bob h =>
    obtain ⟨c, _, an⟩ := h.an
    rcases an with ⟨h | h, _⟩ | ⟨b, h, _⟩ | ⟨b, h, _⟩ <;> (rw [bI] at h; cases h)
  | ans h => obtain ⟨c, b, x, y, _, _, e, _⟩ := h.an; rw [eN] at e; simp at e
  | lead h =>
    obtain ⟨c, b, _, ld⟩ := h.an
    rcases ld with ⟨h | h, _⟩ | ⟨o, h, _⟩ | ⟨o, h, _⟩ | ⟨h, _⟩ <;> (rw [bN] at h; cases h)
  | fwd h => have := h.fw; rw [eI] at this; cases this
  | ack h => have := h.bI; rw [bI] at this; cases this
  | cf h => obtain ⟨x, y, e, _⟩ := h.an; rw [eN] at e; simp at e
  | ibob h =>
    obtain ⟨c, _, an, _⟩ := h.an
    rcases an with ⟨h | h, _⟩ | ⟨b, h, _⟩ | ⟨b, h, _⟩ <;> (rw [bN] at h; cases h)
  | ians h => obtain ⟨c, b, _, _, e⟩ := h.an; rw [eI] at e; simp at e
  | ilead h =>
    obtain ⟨c, b, _, ld⟩ := h.an
    rcases ld with ⟨h | h, _⟩ | ⟨o, h, _⟩ | ⟨o, h, _⟩ | ⟨h, _⟩ <;> (rw [bI] at h; cases h)
  | ifwd h => have := h.fw; rw [eN] at this; cases this
  | iack h => have := h.bN; rw [bN] at this; cases this
  | icf h => obtain ⟨l, e, _⟩ := h.an; rw [eI] at e; simp at e

/-- Whatever has happened under cooperative scheduling, once nothing is under way both endpoints are at the same
version with the same ratchets, idle, and nothing of an earlier re-key is left that would refuse the next one.
Missing: a preemptive scheduler, for which it is false (`C82_counterexample_stuck`). -/
theorem C82_ready_partial (hR : 3 ≤ maxR) (v : Nat) (k : Key) (acts : List Act)
    (hr : AtRest (run (coopStep maxR) (start v k) acts)) :
    let s := run (coopStep maxR) (start v k) acts
    ReadyEP s.i ∧ ReadyEP s.n ∧ s.i.latest = s.n.latest ∧ ∀ v, s.i.keys v = s.n.keys v :=
  inv_rest (inv_run hR (inv_start maxR v k) acts) hr

/-- A schedule of the preemptive scheduler: the call of the non-initiator is refused by nothing it reads, as it reads
each thing at another time. -/
def straddle : List Act := burst
  [(.trig true 1, 12), (.bg false 2, 6), (.trig false 3, 3), (.bg false 4, 2), (.bg true 5, 8), (.bg false 6, 2),
   (.trig false 7, 2), (.bg false 8, 4), (.bg true 9, 9), (.bg false 10, 5), (.trig false 11, 7), (.bg true 12, 4)]

/-- Under a preemptive scheduler the session can come to rest with the non-initiator's toggle set and a version
declared that nobody is working on: it refuses every further call (until the 60 s staleness limit). -/
theorem C82_counterexample_stuck :
    let s := run (fineStep 32) (start 0 ⟨0, 0⟩) straddle
    s.toI = [] ∧ s.toN = [] ∧ s.i.t = .idle ∧ s.n.t = .idle ∧ s.i.b = .recv ∧ s.n.b = .recv ∧
      s.n.tog = true ∧ s.n.declared = 2 ∧ s.n.latest = 1 ∧ s.n.role = .idle := by decide +kernel

/-- Under a preemptive scheduler a re-key can fail at the version barrier. -/
theorem C82_counterexample_error :
    Failed (run (fineStep 32) (start 0 ⟨0, 0⟩) (burst
      [(.trig true 1, 6), (.trig false 2, 12), (.bg true 3, 8), (.bg false 4, 8), (.bg true 5, 3), (.trig true 6, 6),
       (.bg false 7, 2)])).n :=
  Or.inl (by decide +kernel)

/-- A toolset of two ratchets is too small, even under cooperative scheduling: the only ratchet both hold goes. -/
theorem C35_counterexample_two (acts : List Act)
    (h : acts = [.trig true 1, .trig true 1, .trig true 1, .trig true 1, .bg false 2, .bg false 2, .bg false 2,
      .bg false 2, .bg false 2, .bg true 3, .bg true 3, .bg true 3, .bg true 3]) :
    ¬ PeerHolds (run (coopStep 2) (start 0 ⟨0, 0⟩) acts) := by
  subst h
  rintro ⟨⟨k, hk⟩, _⟩
  have : (run (coopStep 2) (start 0 ⟨0, 0⟩) [.trig true 1, .trig true 1, .trig true 1, .trig true 1, .bg false 2,
      .bg false 2, .bg false 2, .bg false 2, .bg false 2, .bg true 3, .bg true 3, .bg true 3, .bg true 3]).i.keys
      (run (coopStep 2) (start 0 ⟨0, 0⟩) [.trig true 1, .trig true 1, .trig true 1, .trig true 1, .bg false 2,
      .bg false 2, .bg false 2, .bg false 2, .bg false 2, .bg true 3, .bg true 3, .bg true 3, .bg true 3]).n.latest
      = none := by decide +kernel
  rw [this] at hk
  cases hk

/-! ### Runs that re-key -/

/-- One re-key started by the initiator, from start to rest. -/
def round (c : Nat) : List Act :=
  List.replicate 4 (.trig true c) ++ List.replicate 5 (.bg false (c + 1)) ++ List.replicate 5 (.bg true 0)
    ++ List.replicate 3 (.bg false 0) ++ List.replicate 2 (.bg true 0)

example :
    let s := run (coopStep 6) (start 0 ⟨0, 0⟩) (round 10 ++ round 20)
    s.toI = [] ∧ s.toN = [] ∧ s.i.b = .recv ∧ s.n.b = .recv ∧ s.i.latest = 2 ∧ s.n.latest = 2 ∧
      s.i.keys 2 = some ⟨20, 21⟩ ∧ s.n.keys 2 = some ⟨20, 21⟩ := by decide +kernel

/-- Both endpoints propose at once: the non-initiator's proposal wins. -/
example :
    let s := run (coopStep 6) (start 0 ⟨0, 0⟩)
      (burst [(.trig true 1, 4), (.trig false 2, 4), (.bg false 3, 3), (.bg true 4, 6), (.bg false 5, 5), (.bg true 6, 4),
        (.bg false 7, 3)])
    s.toI = [] ∧ s.toN = [] ∧ s.i.b = .recv ∧ s.n.b = .recv ∧ s.i.latest = 1 ∧ s.n.latest = 1 ∧
      s.i.keys 1 = some ⟨2, 4⟩ ∧ s.n.keys 1 = some ⟨2, 4⟩ := by decide +kernel

/-- The window moves: after six re-keys the first ratchets are gone on both sides. -/
example :
    let s := run (coopStep 6) (start 0 ⟨0, 0⟩)
      (round 1 ++ round 2 ++ round 3 ++ round 4 ++ round 5 ++ round 6)
    s.i.latest = 6 ∧ s.n.latest = 6 ∧ s.i.keys 1 = none ∧ s.n.keys 1 = none ∧ (s.i.keys 2).isSome = true := by
  decide +kernel

end Verif.Rekey

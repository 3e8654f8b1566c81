import Verif.Rekey.Wire
/-
No packet becomes undecryptable by a re-key.
-/
namespace Verif.Rekey

variable {maxR : Nat}

/-! ### What the background task does to versions and ratchets -/

/-- The leader between the answer and the deregistration of the oldest ratchet. -/
def Hand (x : EP) : Prop := (∃ a b, x.b = .aToggle a b) ∨ (∃ a b, x.b = .aCommit a b) ∨ ∃ v, x.b = .aDereg v

/-- `Truncate` or `LoserCanFinish`. -/
def Finish (m : Msg) : Prop := (∃ v, m = .truncate v) ∨ m = .loserCanFinish

/-- All ratchets but (if the store was full) the oldest are still there. -/
def Kept (maxR : Nat) (x x' : EP) : Prop :=
  ∀ u k, x.keys u = some k → x'.keys u = some k ∨ (u = x.oldest ∧ maxR ≤ x.most - x.oldest + 1)

theorem Kept.refl (x : EP) : Kept maxR x x := fun _ _ h => Or.inl h

theorem kept_of_eq {x x' : EP} (h : x'.keys = x.keys) : Kept maxR x x' := fun _ _ hk => Or.inl (by rw [h]; exact hk)

/-- The state of the background task while it handles the message `m`, received in the state `x0`. -/
def Track (maxR : Nat) (x0 : EP) (m : Msg) (x : EP) : Prop :=
  match x.b with
  | .b2aMeta a b cur => m = .bobToAlice a b cur ∧ x.latest = x0.latest ∧ x.keys = x0.keys
  | .b2aRole a b cur => m = .bobToAlice a b cur ∧ cur = x0.latest ∧ x.latest = x0.latest ∧ x.keys = x0.keys
  | .b2aHas a b cur => m = .bobToAlice a b cur ∧ cur = x0.latest ∧ x.latest = x0.latest ∧ x.keys = x0.keys
  | .b2aTake a b cur => m = .bobToAlice a b cur ∧ cur = x0.latest ∧ x.latest = x0.latest ∧ x.keys = x0.keys
  | .aToggle a b => m = .bobToAlice a b x0.latest ∧ x.latest = x0.latest ∧ x.keys = x0.keys
  | .lRole _ => Finish m ∧ x.latest = x0.latest ∧ x.keys = x0.keys ∧ x.oldest = x0.oldest ∧ x.most = x0.most
  | .lBump => Finish m ∧ x.latest = x0.latest ∧ Kept maxR x0 x
  | .lSync => Finish m ∧ x.latest ≤ x0.latest + 1 ∧ Kept maxR x0 x
  | .lRemove => Finish m ∧ x.latest ≤ x0.latest + 1 ∧ Kept maxR x0 x
  | .lSend => Finish m ∧ x.latest ≤ x0.latest + 1 ∧ Kept maxR x0 x
  | .fRole v => m = .leaderCanFinish v ∧ x.latest = x0.latest ∧ x.keys = x0.keys
  | .fBump v => m = .leaderCanFinish v ∧ x.latest = x0.latest ∧ x.keys = x0.keys
  | .fSync v => m = .leaderCanFinish v ∧ x.keys = x0.keys
  | .retain => m = .leaderCanFinish x.latest ∧ x.keys = x0.keys
  | .errToggle => True
  | .recv => x.latest = x0.latest ∧ x.keys = x0.keys
  | .a2bBarrier _ _ _ => x.latest = x0.latest ∧ x.keys = x0.keys
  | .a2bValidate _ _ => x.latest = x0.latest ∧ x.keys = x0.keys
  | .stale _ => x.latest = x0.latest ∧ x.keys = x0.keys
  | .bToggle _ => x.latest = x0.latest ∧ x.keys = x0.keys
  | _ => False

theorem skip_track {x0 x : EP} {m : Msg} (h : x.latest = x0.latest ∧ x.keys = x0.keys) : Track maxR x0 m (skip x) := by
  unfold skip
  split
  · trivial
  · exact h

theorem kept_dereg {x0 x x' : EP} {v : Nat} {p : BPc} (hk : x.keys = x0.keys) (ho : x.oldest = x0.oldest)
    (hm : x.most = x0.most) (h : dereg maxR x v = some x') : Kept maxR x0 { x' with b := p } := by
  unfold dereg at h
  split at h
  · cases h
  · rename_i hf
    split at h
    · cases h
    · injection h with h
      subst h
      intro u k hu
      dsimp only
      by_cases e : u = x0.oldest
      · exact Or.inr ⟨e, by rw [← ho, ← hm]; omega⟩
      · left
        rw [ho, del_ne _ e, hk]
        exact hu

theorem track_step {init : Bool} {x0 x : EP} {m : Msg} (hp : bPoint x.b = false) (h : Track maxR x0 m x) :
    Track maxR x0 m (bLocal maxR init x) := by
  cases hb : x.b <;> simp only [Track, hb] at h <;> rw [hb] at hp <;>
    first | (exact absurd hp (by decide)) | skip
  case bToggle a => simp [bPoint] at hp
  case aToggle a b => simp [bPoint] at hp
  case a2bBarrier a lat cur =>
    simp only [bLocal, hb]
    repeat' split
    all_goals first | trivial | exact h
  case stale next => simp only [bLocal, hb]; exact skip_track h
  case a2bValidate a cur =>
    simp only [bLocal, hb]
    split
    · exact skip_track h
    · repeat' split
      all_goals first | trivial | exact h
  case b2aMeta a b cur =>
    simp only [bLocal, hb]
    split
    · exact h.2
    · split
      · trivial
      · exact ⟨h.1, by have := h.2.1; omega, h.2⟩
  case b2aRole a b cur =>
    simp only [bLocal, hb]
    split
    · exact skip_track h.2.2
    · exact h
  case b2aHas a b cur =>
    simp only [bLocal, hb]
    split
    · exact skip_track h.2.2
    · exact h
  case b2aTake a b cur =>
    simp only [bLocal, hb]
    split
    · exact ⟨by rw [h.1, h.2.1], h.2.2⟩
    · trivial
  case lRole t =>
    simp only [bLocal, hb]
    split
    · trivial
    · split
      · exact ⟨h.1, h.2.1, kept_of_eq h.2.2.1⟩
      · split
        · rename_i x' hd
          exact ⟨h.1, by dsimp only; rw [dereg_latest hd]; exact h.2.1, kept_dereg h.2.2.1 h.2.2.2.1 h.2.2.2.2 hd⟩
        · trivial
  case lBump =>
    simp only [bLocal, hb]
    split
    · exact ⟨h.1, by dsimp only; omega, h.2.2⟩
    · exact ⟨h.1, by dsimp only; omega, h.2.2⟩
  case lSync => simp only [bLocal, hb]; exact h
  case lRemove => simp only [bLocal, hb]; exact h
  case fRole v =>
    simp only [bLocal, hb]
    split
    · trivial
    · exact h
  case fBump v =>
    simp only [bLocal, hb]
    split
    · exact ⟨h.1, h.2.2⟩
    · exact ⟨h.1, h.2.2⟩
  case fSync v =>
    simp only [bLocal, hb]
    split
    · trivial
    · rename_i hv
      refine ⟨?_, h.2⟩
      dsimp only
      rw [h.1]
      congr 1
      exact (Decidable.not_not.mp hv).symm

theorem track_settle {init : Bool} {x0 : EP} {m : Msg} : ∀ (n : Nat) (x : EP), Track maxR x0 m x →
    Track maxR x0 m (bSettle maxR init n x) := by
  intro n
  induction n with
  | zero => intro x h; exact h
  | succ n ih =>
    intro x h
    rw [bSettle]
    cases hp : bPoint x.b with
    | true => exact h
    | false => exact ih _ (track_step hp h)

theorem track_recv {init : Bool} {x : EP} {m : Msg} {rest : List Msg} {fr : Nat} (hb : x.b = .recv) :
    Track maxR x m (bMacro maxR init x (m :: rest) fr).1 := by
  unfold bMacro
  simp only [bStep, hb]
  apply track_settle
  cases m with
  | aliceToBob a lat cur => exact ⟨rfl, rfl⟩
  | bobToAlice a b cur => exact ⟨rfl, rfl, rfl⟩
  | truncate v => exact ⟨Or.inl ⟨v, rfl⟩, rfl, rfl, rfl, rfl⟩
  | loserCanFinish => exact ⟨Or.inr rfl, rfl, rfl, rfl, rfl⟩
  | leaderCanFinish v => exact ⟨rfl, rfl, rfl⟩

/-- Handling a message. -/
structure Handled (maxR : Nat) (x : EP) (m : Msg) (x' : EP) : Prop where
  lat : x'.latest = x.latest ∨ (Finish m ∧ x'.latest ≤ x.latest + 1) ∨ m = .leaderCanFinish x'.latest
  hand : Hand x' → ∃ a b, m = .bobToAlice a b x.latest
  kept : ∀ u k, x.keys u = some k →
    x'.keys u = some k ∨ (Finish m ∧ u = x.oldest ∧ maxR ≤ x.most - x.oldest + 1)

theorem handled {init : Bool} {x : EP} {m : Msg} {rest : List Msg} {fr : Nat} (hb : x.b = .recv)
    (hf : ¬ Failed (bMacro maxR init x (m :: rest) fr).1) :
    Handled maxR x m (bMacro maxR init x (m :: rest) fr).1 := by
  have h := track_recv (maxR := maxR) (init := init) (rest := rest) (fr := fr) (m := m) hb
  have hp := bMacro_point maxR init x (m :: rest) fr
  generalize (bMacro maxR init x (m :: rest) fr).1 = x' at h hf hp
  have same : x'.latest = x.latest ∧ x'.keys = x.keys → ¬ Hand x' → Handled maxR x m x' := fun e hn =>
    ⟨Or.inl e.1, fun h => absurd h hn, fun u k hk => Or.inl (by rw [e.2]; exact hk)⟩
  cases hb' : x'.b <;> simp only [Track, hb'] at h <;> simp only [hb', bPoint] at hp
  case errToggle => exact absurd (Or.inl hb') hf
  case aToggle a b => exact ⟨Or.inl h.2.1, fun _ => ⟨a, b, h.1⟩, fun u k hk => Or.inl (by rw [h.2.2]; exact hk)⟩
  case lSend =>
    exact ⟨Or.inr (Or.inl ⟨h.1, h.2.1⟩), fun h => (by simp [Hand, hb'] at h), fun u k hk =>
      (h.2.2 u k hk).imp id (fun h' => ⟨h.1, h'⟩)⟩
  case retain =>
    exact ⟨Or.inr (Or.inr h.1), fun h => (by simp [Hand, hb'] at h), fun u k hk => Or.inl (by rw [h.2]; exact hk)⟩
  all_goals first
    | exact same h (by simp [Hand, hb'])
    | exact absurd hp (by decide)

/-- A step of the background task that takes no message. -/
structure Other (maxR : Nat) (x x' : EP) (out : List Msg) : Prop where
  lat : x'.latest = x.latest
  hand : Hand x' → Hand x
  kept : ∀ u k, x.keys u = some k → u ≠ x.most + 1 →
    x'.keys u = some k ∨ (Hand x ∧ u = x.oldest ∧ maxR ≤ x.most - x.oldest + 1)
  out : ∀ m ∈ out, (∃ a b, m = .bobToAlice a b x.rmeta ∧ x.b = .bSend a b) ∨ m = .leaderCanFinish x.latest ∨ Finish m

theorem other {init : Bool} {x : EP} {inn : List Msg} {fr : Nat} (hb : x.b ≠ .recv) (hp : bPoint x.b = true)
    (hf : ¬ Failed x) (hk : (x.keys x.latest).isSome = true) (hf' : ¬ Failed (bMacro maxR init x inn fr).1) :
    Other maxR x (bMacro maxR init x inn fr).1 (bMacro maxR init x inn fr).2.2 ∧
      (bMacro maxR init x inn fr).2.1 = inn := by
  have key : ∀ x' out, bMacro maxR init x inn fr = (x', inn, out) → Other maxR x x' out →
      Other maxR x (bMacro maxR init x inn fr).1 (bMacro maxR init x inn fr).2.2 ∧
      (bMacro maxR init x inn fr).2.1 = inn := by
    intro x' out e h
    rw [e]
    exact ⟨h, rfl⟩
  have same : ∀ x' out, x'.latest = x.latest → x'.keys = x.keys → (Hand x' → Hand x) →
      (∀ m ∈ out, (∃ a b, m = .bobToAlice a b x.rmeta ∧ x.b = .bSend a b) ∨ m = .leaderCanFinish x.latest ∨ Finish m) →
      Other maxR x x' out := fun x' out h1 h2 h3 h4 =>
    ⟨h1, h3, fun u k hk _ => Or.inl (by rw [h2]; exact hk), h4⟩
  have nil : ∀ m ∈ ([] : List Msg), (∃ a b, m = .bobToAlice a b x.rmeta ∧ x.b = .bSend a b) ∨
      m = .leaderCanFinish x.latest ∨ Finish m := by intro m hm; cases hm
  have put : ∀ x' k, x'.latest = x.latest → x'.keys = put x.keys (x.most + 1) k → (Hand x' → Hand x) →
      Other maxR x x' [] := fun x' k h1 h2 h3 =>
    ⟨h1, h3, fun u q hq hne => Or.inl (by rw [h2]; unfold Rekey.put; rw [if_neg hne]; exact hq), nil⟩
  cases hb' : x.b <;> simp only [hb', bPoint] at hp <;> first | (exact absurd hp (by decide)) | skip
  case recv => exact absurd hb' hb
  case errToggle => exact absurd (Or.inl hb') hf
  case bToggle a =>
    by_cases h : x.tog = true ∧ init = false
    · exact key _ _ (bMacro_bToggle_contended hb' h.1 h.2) (same _ _ rfl rfl (by simp [Hand]) nil)
    · refine key _ _ (bMacro_bToggle_commit hb' ?_) (same _ _ rfl rfl (by simp [Hand]) nil)
      cases ht : x.tog with
      | false => exact Or.inl rfl
      | true =>
        cases hi : init with
        | true => exact Or.inr rfl
        | false => exact absurd ⟨ht, hi⟩ h
  case bContended => exact key _ _ (bMacro_bContended hb') (same _ _ rfl rfl (by simp [Hand]) nil)
  case bCommit a => exact key _ _ (bMacro_bCommit hb') (put _ _ rfl rfl (by simp [Hand]))
  case bToggle2 a b => exact key _ _ (bMacro_bToggle2 hb') (same _ _ rfl rfl (by simp [Hand]) nil)
  case bSend a b =>
    refine key _ _ (bMacro_bSend hb') (same _ _ rfl rfl (by simp [Hand]) ?_)
    intro m hm
    rw [List.mem_singleton] at hm
    exact Or.inl ⟨a, b, hm, hb'⟩
  case aToggle a b => exact key _ _ (bMacro_aToggle hb') (same _ _ rfl rfl (fun _ => Or.inl ⟨a, b, hb'⟩) nil)
  case aCommit a b =>
    by_cases hm : (x.most + 1) - x.oldest + 1 ≥ maxR
    · exact key _ _ (bMacro_aCommit_full hb' hm) (put _ _ rfl rfl (fun _ => Or.inr (Or.inl ⟨a, b, hb'⟩)))
    · exact key _ _ (bMacro_aCommit_room hb' hm) (put _ _ rfl rfl (fun _ => Or.inr (Or.inl ⟨a, b, hb'⟩)))
  case aDereg v =>
    by_cases hm : x.most - x.oldest + 1 < maxR
    · exfalso
      apply hf'
      have hd : dereg maxR x v = none := by rw [dereg, if_pos hm]
      have e : bMacro maxR init x inn fr = ({ x with b := .errToggle }, inn, []) := by
        simp only [bMacro, bStep, hb', bLocal, hd]
        rw [bSettle_stop rfl]
      rw [e]
      exact Or.inl rfl
    · by_cases ho : x.oldest = v
      · refine key _ _ (bMacro_aDereg hb' hm ho) ⟨rfl, by simp [Hand], ?_, nil⟩
        intro u k hu _
        by_cases e : u = x.oldest
        · exact Or.inr ⟨Or.inr (Or.inr ⟨v, hb'⟩), e, by omega⟩
        · left
          dsimp only
          rw [del_ne _ e]
          exact hu
      · exfalso
        apply hf'
        have hd : dereg maxR x v = none := by rw [dereg, if_neg hm, if_pos ho]
        have e : bMacro maxR init x inn fr = ({ x with b := .errToggle }, inn, []) := by
          simp only [bMacro, bStep, hb', bLocal, hd]
          rw [bSettle_stop rfl]
        rw [e]
        exact Or.inl rfl
  case aSendTrunc v =>
    refine key _ _ (bMacro_aSendTrunc hb') (same _ _ rfl rfl (by simp [Hand]) ?_)
    intro m hm
    rw [List.mem_singleton] at hm
    exact Or.inr (Or.inr (Or.inl ⟨v, hm⟩))
  case aSendLoser =>
    refine key _ _ (bMacro_aSendLoser hb') (same _ _ rfl rfl (by simp [Hand]) ?_)
    intro m hm
    rw [List.mem_singleton] at hm
    exact Or.inr (Or.inr (Or.inr hm))
  case lSend =>
    refine key _ _ (bMacro_lSend hb') (same _ _ rfl rfl (by simp [Hand]) ?_)
    intro m hm
    rw [List.mem_singleton] at hm
    exact Or.inr (Or.inl hm)
  case retain => exact key _ _ (bMacro_retain hb' hk) (same _ _ rfl rfl (by simp [Hand]) nil)

/-- What the trigger task leaves alone. -/
theorem tSettle_keep {P : EP → Prop} (fr : Nat) (h : ∀ x, P x → P (tLocal x fr)) : ∀ n x, P x → P (tSettle fr n x) := by
  intro n
  induction n with
  | zero => intro x hx; exact hx
  | succ n ih =>
    intro x hx
    rw [tSettle]
    split
    · exact hx
    · exact ih _ (h _ hx)

theorem trig_keeps (x : EP) (fr : Nat) :
    (tMacro x fr).1.latest = x.latest ∧ (tMacro x fr).1.keys = x.keys ∧ (tMacro x fr).1.b = x.b ∧
      ∀ m ∈ (tMacro x fr).2, ∃ a l c, m = .aliceToBob a l c := by
  have loc : ∀ y : EP, (tLocal y fr).latest = y.latest ∧ (tLocal y fr).keys = y.keys ∧ (tLocal y fr).b = y.b := by
    intro y
    unfold tLocal
    repeat' split
    all_goals exact ⟨rfl, rfl, rfl⟩
  have step : ∀ y : EP, (y.latest = x.latest ∧ y.keys = x.keys ∧ y.b = x.b) →
      (tLocal y fr).latest = x.latest ∧ (tLocal y fr).keys = x.keys ∧ (tLocal y fr).b = x.b := by
    intro y hy
    obtain ⟨h1, h2, h3⟩ := loc y
    exact ⟨h1.trans hy.1, h2.trans hy.2.1, h3.trans hy.2.2⟩
  unfold tMacro
  have h0 : ((tStep x fr).1.latest = x.latest ∧ (tStep x fr).1.keys = x.keys ∧ (tStep x fr).1.b = x.b) ∧
      ∀ m ∈ (tStep x fr).2, ∃ a l c, m = .aliceToBob a l c := by
    unfold tStep
    split
    · refine ⟨⟨rfl, rfl, rfl⟩, ?_⟩
      intro m hm
      rw [List.mem_singleton] at hm
      exact ⟨_, _, _, hm⟩
    · exact ⟨loc x, by intro m hm; cases hm⟩
  obtain ⟨h1, h2, h3⟩ := tSettle_keep (P := fun y => y.latest = x.latest ∧ y.keys = x.keys ∧ y.b = x.b) fr step tFuel _ h0.1
  exact ⟨h1, h2, h3, h0.2⟩

/-! ### What the invariant says about either endpoint -/

/-- `x` is an endpoint, `y` its peer, `tox` all messages under way to `x`. -/
structure Facts (x y : EP) (tox : List Msg) : Prop where
  point : bPoint x.b = true
  ok : ¬ Failed x
  top : x.most ≤ x.latest + 1
  close : x.latest ≤ y.latest + 1
  hand : Hand x → x.latest = y.latest
  bmeta : ∀ a b, x.b = .bSend a b → x.rmeta = x.latest
  fin : ∀ m ∈ tox, Finish m → x.latest = y.latest
  have_ : ∀ u, (x.keys u).isSome = true ↔ x.oldest ≤ u ∧ u ≤ x.most
  cur : ∃ k, x.keys x.latest = some k ∧ y.keys x.latest = some k

theorem noise_props {q : Prop} {x : EP} {tr : List Msg} (h : Noise q x tr) : ∀ m ∈ tr, ¬ Finish m := by
  have old : ∀ l, Old x.latest l → ∀ m ∈ l, ¬ Finish m := by
    intro l hl m hm
    obtain ⟨a, u, e, _⟩ := hl m hm
    rw [e]
    simp [Finish]
  cases h.st with
  | rest _ ho _ => exact old _ ho
  | sent a pre _ htr ho _ _ _ =>
    rw [htr]
    intro m hm
    rcases List.mem_append.mp hm with hm | hm
    · exact old _ ho m hm
    · rw [List.mem_singleton.mp hm]
      simp [Finish]
  | fresh8 _ _ ho => exact old _ ho
  | fresh11 _ _ ho => exact old _ ho
  | fresh15 _ _ ho => exact old _ ho
  | stale8 _ _ _ _ ho => exact old _ ho
  | stale11 _ _ _ _ ho => exact old _ ho
  | stale15 _ _ _ _ ho => exact old _ ho
  | sleep _ _ _ _ ho => exact old _ ho

theorem facts {s : Sys} (h : Inv maxR s) : Facts s.i s.n s.toI ∧ Facts s.n s.i s.toN := by
  have hcl := inv_close h
  obtain ⟨hok, hok'⟩ := inv_ok h
  have hcur : (∃ k, s.i.keys s.i.latest = some k ∧ s.n.keys s.i.latest = some k) ∧
      (∃ k, s.n.keys s.n.latest = some k ∧ s.i.keys s.n.latest = some k) := same_key h
  have build : bPoint s.i.b = true → bPoint s.n.b = true → s.i.most ≤ s.i.latest + 1 → s.n.most ≤ s.n.latest + 1 →
      (Hand s.i → s.i.latest = s.n.latest) → (Hand s.n → s.i.latest = s.n.latest) →
      (∀ a b, s.i.b = .bSend a b → s.i.rmeta = s.i.latest) → (∀ a b, s.n.b = .bSend a b → s.n.rmeta = s.n.latest) →
      (∀ m ∈ s.toI, Finish m → s.i.latest = s.n.latest) → (∀ m ∈ s.toN, Finish m → s.i.latest = s.n.latest) →
      Facts s.i s.n s.toI ∧ Facts s.n s.i s.toN := fun h1 h2 h3 h4 h5 h6 h7 h8 h9 h10 =>
    ⟨⟨h1, hok, h3, hcl.1, h5, h7, h9, h.win.hI, hcur.1⟩,
     ⟨h2, hok', h4, hcl.2, fun h => (h6 h).symm, h8, fun m hm hf => (h10 m hm hf).symm, h.win.hN, hcur.2⟩⟩
  have rest : ∀ x : EP, Rest x → bPoint x.b = true ∧ ¬ Hand x ∧ ∀ a b, x.b ≠ .bSend a b := by
    rintro x (⟨h, _⟩ | ⟨h, _⟩) <;> simp [Hand, h, bPoint]
  have busy : ∀ x : EP, Busy x → bPoint x.b = true ∧ ¬ Hand x ∧ ∀ a b, x.b ≠ .bSend a b := by
    rintro x ⟨h | ⟨a, h⟩ | h, _⟩ <;> simp [Hand, h, bPoint]
  have recv : ∀ x : EP, x.b = .recv → bPoint x.b = true ∧ ¬ Hand x ∧ ∀ a b, x.b ≠ .bSend a b := by
    intro x h; simp [Hand, h, bPoint]
  have lsend : ∀ x : EP, x.b = .lSend → bPoint x.b = true ∧ ¬ Hand x ∧ ∀ a b, x.b ≠ .bSend a b := by
    intro x h; simp [Hand, h, bPoint]
  have answering : ∀ v c (x : EP), Answering v c x → bPoint x.b = true ∧ x.most ≤ v + 1 := by
    rintro v c x (⟨h | h, _, _⟩ | ⟨b, h, _, _⟩ | ⟨b, h, _, _⟩) <;> simp [h, bPoint] <;> omega
  have leading : ∀ v c b (x y : EP), Leading maxR v c b x y → bPoint x.b = true ∧ x.most ≤ v + 1 ∧
      ∀ a b, x.b ≠ .bSend a b := by
    rintro v c b x y (⟨h | h, _⟩ | ⟨o, h, _⟩ | ⟨o, h, _⟩ | ⟨h, _⟩) <;> simp [h, bPoint] <;> omega
  have np : ∀ v (x : EP) l, NP v x l → (bPoint x.b = true ∧ ¬ Hand x ∧ ∀ a b, x.b ≠ .bSend a b) ∧
      ∀ m ∈ l, ¬ Finish m := by
    intro v x l h
    cases h with
    | none _ _ _ _ h => rcases h with h | ⟨a, h⟩ <;> simp [Hand, h, bPoint]
    | fin _ _ _ h => simp [Hand, h, bPoint]
    | t8 _ _ _ _ _ h => exact ⟨busy x h, by simp⟩
    | t11 _ _ _ _ _ h => exact ⟨busy x h, by simp⟩
    | t15 _ _ _ _ _ h => exact ⟨busy x h, by simp⟩
    | out _ _ _ _ _ h => exact ⟨busy x h, by simp [Finish]⟩
  cases h.stage with
  | quiet h =>
    have e := h.ver
    have := h.mI
    have := h.mN
    exact build (rest _ h.hI).1 (np _ _ _ h.np).1.1 (by omega) (by omega) (fun _ => e) (fun _ => e)
      (fun a b hb => absurd hb ((rest _ h.hI).2.2 a b)) (fun a b hb => absurd hb ((np _ _ _ h.np).1.2.2 a b))
      (fun _ _ _ => e) (fun _ _ _ => e)
  | bob h =>
    have e := h.ver
    have := h.mN
    obtain ⟨c, o, an⟩ := h.an
    have := (answering _ _ _ an).2
    have := h.rmI
    exact build (answering _ _ _ an).1 (busy _ o.hb).1 (by omega) (by omega) (fun _ => e) (fun _ => e)
      (fun a b hb => by omega) (fun a b hb => absurd hb ((busy _ o.hb).2.2 a b)) (fun _ _ _ => e) (fun _ _ _ => e)
  | ans h =>
    have e := h.ver
    have := h.mN
    obtain ⟨c, b, x, y, o, an, _⟩ := h.an
    have := an.hm
    exact build (recv _ an.hb).1 (busy _ o.hb).1 (by omega) (by omega) (fun _ => e) (fun _ => e)
      (fun a b hb => absurd hb ((recv _ an.hb).2.2 a b)) (fun a b hb => absurd hb ((busy _ o.hb).2.2 a b))
      (fun _ _ _ => e) (fun _ _ _ => e)
  | lead h =>
    have e := h.ver
    obtain ⟨c, b, an, ld⟩ := h.an
    have := an.hm
    have := (leading _ _ _ _ _ ld).2.1
    exact build (recv _ an.hb).1 (leading _ _ _ _ _ ld).1 (by omega) (by omega) (fun _ => e) (fun _ => e)
      (fun a b hb => absurd hb ((recv _ an.hb).2.2 a b)) (fun a b hb => absurd hb ((leading _ _ _ _ _ ld).2.2 a b))
      (fun _ _ _ => e) (fun _ _ _ => e)
  | fwd h =>
    have e := h.ver
    obtain ⟨c, b, an⟩ := h.an
    have := an.hm
    have := h.mN
    exact build (recv _ an.hb).1 (recv _ h.bN).1 (by omega) (by omega) (fun _ => e) (fun _ => e)
      (fun a b hb => absurd hb ((recv _ an.hb).2.2 a b)) (fun a b hb => absurd hb ((recv _ h.bN).2.2 a b))
      (fun _ _ _ => e) (fun _ _ _ => e)
  | ack h =>
    have e := h.ver
    have := h.mI
    have := h.mN
    refine build (lsend _ h.bI).1 (recv _ h.bN).1 (by omega) (by omega) (fun hh => absurd hh (lsend _ h.bI).2.1)
      (fun hh => absurd hh (recv _ h.bN).2.1)
      (fun a b hb => absurd hb ((lsend _ h.bI).2.2 a b)) (fun a b hb => absurd hb ((recv _ h.bN).2.2 a b)) ?_ ?_
    · rw [h.toI]
      intro m hm
      cases hm
    · intro m hm hf
      obtain ⟨a, u, e, _⟩ := (h.nz.old (Or.inl h.bI)) m hm
      rw [e] at hf
      simp [Finish] at hf
  | cf h =>
    have e := h.ver
    have := h.mI
    have := h.mN
    refine build (rest _ h.hI).1 (recv _ h.bN).1 (by omega) (by omega) (fun hh => absurd hh (rest _ h.hI).2.1)
      (fun hh => absurd hh (recv _ h.bN).2.1)
      (fun a b hb => absurd hb ((rest _ h.hI).2.2 a b)) (fun a b hb => absurd hb ((recv _ h.bN).2.2 a b)) ?_ ?_
    · rw [h.toI]
      intro m hm
      cases hm
    · obtain ⟨x, y, hxy, hx, hn, _⟩ := h.an
      rw [hxy]
      intro m hm hf
      exfalso
      have hp : ∀ m ∈ x ++ y, ¬ Finish m := noise_props hn
      rw [List.mem_append, List.mem_cons] at hm
      rcases hm with hm | rfl | hm
      · exact hp m (List.mem_append.mpr (Or.inl hm)) hf
      · simp [Finish] at hf
      · exact hp m (List.mem_append.mpr (Or.inr hm)) hf
  | ibob h =>
    have e := h.ver
    have := h.mI
    obtain ⟨c, _, an, _⟩ := h.an
    have := (answering _ _ _ an).2
    have := h.rmN
    exact build (recv _ h.bI).1 (answering _ _ _ an).1 (by omega) (by omega) (fun _ => e.symm) (fun _ => e.symm)
      (fun a b hb => absurd hb ((recv _ h.bI).2.2 a b)) (fun a b hb => by omega) (fun _ _ _ => e.symm)
      (fun _ _ _ => e.symm)
  | ians h =>
    have e := h.ver
    have := h.mI
    obtain ⟨c, b, _, an, _⟩ := h.an
    have := an.hm
    exact build (recv _ h.bI).1 (recv _ an.hb).1 (by omega) (by omega) (fun _ => e.symm) (fun _ => e.symm)
      (fun a b hb => absurd hb ((recv _ h.bI).2.2 a b)) (fun a b hb => absurd hb ((recv _ an.hb).2.2 a b))
      (fun _ _ _ => e.symm) (fun _ _ _ => e.symm)
  | ilead h =>
    have e := h.ver
    obtain ⟨c, b, an, ld⟩ := h.an
    have := an.hm
    have := (leading _ _ _ _ _ ld).2.1
    exact build (leading _ _ _ _ _ ld).1 (recv _ an.hb).1 (by omega) (by omega) (fun _ => e.symm) (fun _ => e.symm)
      (fun a b hb => absurd hb ((leading _ _ _ _ _ ld).2.2 a b)) (fun a b hb => absurd hb ((recv _ an.hb).2.2 a b))
      (fun _ _ _ => e.symm) (fun _ _ _ => e.symm)
  | ifwd h =>
    have e := h.ver
    have := h.mI
    obtain ⟨c, b, an⟩ := h.an
    have := an.hm
    exact build (recv _ h.bI).1 (recv _ an.hb).1 (by omega) (by omega) (fun _ => e.symm) (fun _ => e.symm)
      (fun a b hb => absurd hb ((recv _ h.bI).2.2 a b)) (fun a b hb => absurd hb ((recv _ an.hb).2.2 a b))
      (fun _ _ _ => e.symm) (fun _ _ _ => e.symm)
  | iack h =>
    have e := h.ver
    have := h.mI
    have := h.mN
    refine build (recv _ h.bI).1 (lsend _ h.bN).1 (by omega) (by omega) (fun hh => absurd hh (recv _ h.bI).2.1)
      (fun hh => absurd hh (lsend _ h.bN).2.1)
      (fun a b hb => absurd hb ((recv _ h.bI).2.2 a b)) (fun a b hb => absurd hb ((lsend _ h.bN).2.2 a b)) ?_ ?_
    · rw [h.toI]
      intro m hm
      cases hm
    · rw [h.toN]
      intro m hm
      cases hm
  | icf h =>
    have e := h.ver
    have := h.mI
    have := h.mN
    refine build (recv _ h.bI).1 (rest _ h.hN).1 (by omega) (by omega) (fun hh => absurd hh (recv _ h.bI).2.1)
      (fun hh => absurd hh (rest _ h.hN).2.1)
      (fun a b hb => absurd hb ((recv _ h.bI).2.2 a b)) (fun a b hb => absurd hb ((rest _ h.hN).2.2 a b)) ?_ ?_
    · obtain ⟨l, hl, hnp⟩ := h.an
      rw [hl]
      intro m hm hf
      exfalso
      rcases List.mem_cons.mp hm with rfl | hm
      · simp [Finish] at hf
      · exact (np _ _ _ hnp).2 m hm hf
    · rw [h.toN]
      intro m hm
      cases hm

/-! ### What is under way -/

/-- The usable versions of the sender when the messages and packets of a direction were sent. -/
def stamps (d : Dir) : List Nat := d.inq.map Prod.fst ++ d.wire.map Pkt.sent

/-- The re-key messages that have been sent. -/
def sentMsgs (d : Dir) : List (Nat × Msg) := d.inq ++ d.wire.flatMap fun p => (p.body.map fun m => (p.sent, m)).toList

/-- All re-key messages of a direction. -/
def content (d : Dir) : List Msg := (sentMsgs d).map Prod.snd ++ d.out

/-- A message does not speak of a version the sender has not reached. -/
def Past (w : Nat) (m : Msg) : Prop :=
  (∀ a b c, m = .bobToAlice a b c → c ≤ w) ∧ (∀ v, m = .leaderCanFinish v → v ≤ w)

/-- A direction, to `x` from `y`. -/
structure Flow (x y : EP) (d : Dir) : Prop where
  sorted : (stamps d).Pairwise (· ≤ ·)
  past : ∀ w ∈ stamps d, w ≤ y.latest
  near : ∀ w ∈ stamps d, x.latest ≤ w + 1
  hand : Hand x → ∀ w ∈ stamps d, x.latest ≤ w
  msg : ∀ p ∈ sentMsgs d, Past p.1 p.2 ∧ (Finish p.2 → x.latest ≤ p.1)
  out : ∀ m ∈ d.out, Past y.latest m
  ver : ∀ p ∈ d.wire, p.sent ≤ p.ver + 1 ∧ (p.reply = false → p.ver = p.sent)
  opens : ∀ p ∈ d.wire, x.keys p.ver = some p.key
  own : ∀ p ∈ d.wire, p.reply = false → y.keys p.ver = some p.key

theorem past_mono {w w' : Nat} {m : Msg} (h : Past w m) (hw : w ≤ w') : Past w' m :=
  ⟨fun a b c e => Nat.le_trans (h.1 a b c e) hw, fun v e => Nat.le_trans (h.2 v e) hw⟩

theorem mem_stamps {d : Dir} {p : Nat × Msg} (h : p ∈ sentMsgs d) : p.1 ∈ stamps d := by
  unfold sentMsgs at h
  unfold stamps
  rcases List.mem_append.mp h with h | h
  · exact List.mem_append.mpr (Or.inl (List.mem_map_of_mem h))
  · obtain ⟨q, hq, hp⟩ := List.mem_flatMap.mp h
    refine List.mem_append.mpr (Or.inr ?_)
    cases hb : q.body with
    | none => simp [hb] at hp
    | some m =>
      simp [hb] at hp
      rw [hp]
      exact List.mem_map_of_mem hq

theorem wire_stamp {d : Dir} {p : Pkt} (h : p ∈ d.wire) : p.sent ∈ stamps d :=
  List.mem_append.mpr (Or.inr (List.mem_map_of_mem h))

theorem mem_content {d : Dir} {p : Nat × Msg} (h : p ∈ sentMsgs d) : p.2 ∈ content d :=
  List.mem_append.mpr (Or.inl (List.mem_map_of_mem h))

/-- The peer `x` has not moved, the sender has. -/
theorem flow_sender {x y y' : EP} {d : Dir} {ms : List Msg} (h : Flow x y d) (hl : y.latest ≤ y'.latest)
    (hms : ∀ m ∈ ms, Past y'.latest m)
    (hk : ∀ p ∈ d.wire, p.reply = false → y.keys p.ver = some p.key → y'.keys p.ver = some p.key) :
    Flow x y' { d with out := d.out ++ ms } where
  sorted := h.sorted
  past := fun w hw => Nat.le_trans (h.past w hw) hl
  near := h.near
  hand := h.hand
  msg := h.msg
  out := by
    intro m hm
    rcases List.mem_append.mp hm with hm | hm
    · exact past_mono (h.out m hm) hl
    · exact hms m hm
  ver := h.ver
  opens := h.opens
  own := fun p hp hr => hk p hp hr (h.own p hp hr)

/-- A new packet. -/
theorem flow_push {x y : EP} {d d' : Dir} {p : Pkt} (h : Flow x y d) (hw : d'.wire = d.wire ++ [p]) (hi : d'.inq = d.inq)
    (ho : ∀ m ∈ d'.out, m ∈ d.out) (hs : p.sent = y.latest) (hc : x.latest ≤ y.latest + 1)
    (hh : Hand x → x.latest = y.latest) (hb : ∀ m, p.body = some m → Past y.latest m ∧ (Finish m → x.latest = y.latest))
    (hv : p.sent ≤ p.ver + 1 ∧ (p.reply = false → p.ver = p.sent)) (hk : x.keys p.ver = some p.key)
    (hk' : p.reply = false → y.keys p.ver = some p.key) : Flow x y d' := by
  have est : stamps d' = stamps d ++ [y.latest] := by
    unfold stamps
    rw [hw, hi, List.map_append, List.append_assoc]
    simp [hs]
  have ems : sentMsgs d' = sentMsgs d ++ (p.body.map fun m => (p.sent, m)).toList := by
    unfold sentMsgs
    rw [hw, hi, List.flatMap_append, List.append_assoc]
    simp
  refine ⟨?_, ?_, ?_, ?_, ?_, fun m hm => h.out m (ho m hm), ?_, ?_, ?_⟩
  · rw [est, List.pairwise_append]
    refine ⟨h.sorted, List.pairwise_singleton _ _, ?_⟩
    intro a ha b hb
    rw [List.mem_singleton.mp hb]
    exact h.past a ha
  · intro w hw
    rw [est, List.mem_append, List.mem_singleton] at hw
    rcases hw with hw | rfl
    · exact h.past w hw
    · exact Nat.le_refl _
  · intro w hw
    rw [est, List.mem_append, List.mem_singleton] at hw
    rcases hw with hw | rfl
    · exact h.near w hw
    · exact hc
  · intro hx w hw
    rw [est, List.mem_append, List.mem_singleton] at hw
    rcases hw with hw | rfl
    · exact h.hand hx w hw
    · exact Nat.le_of_eq (hh hx)
  · intro q hq
    rw [ems, List.mem_append] at hq
    rcases hq with hq | hq
    · exact h.msg q hq
    · cases e : p.body with
      | none => simp [e] at hq
      | some m =>
        simp [e] at hq
        rw [hq, hs]
        exact ⟨(hb m e).1, fun hf => Nat.le_of_eq ((hb m e).2 hf)⟩
  · intro q hq
    rw [hw, List.mem_append, List.mem_singleton] at hq
    rcases hq with hq | rfl
    · exact h.ver q hq
    · exact hv
  · intro q hq
    rw [hw, List.mem_append, List.mem_singleton] at hq
    rcases hq with hq | rfl
    · exact h.opens q hq
    · exact hk
  · intro q hq hr
    rw [hw, List.mem_append, List.mem_singleton] at hq
    rcases hq with hq | rfl
    · exact h.own q hq hr
    · exact hk' hr

/-- The packet processor takes the first packet. -/
theorem flow_deliver {x y : EP} {d : Dir} {p : Pkt} {rest : List Pkt} (h : Flow x y d) (hw : d.wire = p :: rest) :
    Flow x y { d with wire := rest, inq := d.inq ++ (p.body.map fun m => (p.sent, m)).toList } := by
  have ems : sentMsgs { d with wire := rest, inq := d.inq ++ (p.body.map fun m => (p.sent, m)).toList } = sentMsgs d := by
    unfold sentMsgs
    rw [hw]
    simp
  have sub : (stamps { d with wire := rest, inq := d.inq ++ (p.body.map fun m => (p.sent, m)).toList }).Sublist
      (stamps d) := by
    unfold stamps
    rw [hw, List.map_append, List.append_assoc, List.map_cons]
    apply List.Sublist.append (List.Sublist.refl _)
    cases p.body with
    | none => exact List.sublist_cons_self _ _
    | some m => exact List.Sublist.refl _
  have sw : ∀ q ∈ rest, q ∈ d.wire := by
    intro q hq
    rw [hw]
    exact List.mem_cons_of_mem _ hq
  exact ⟨h.sorted.sublist sub, fun w hw => h.past w (sub.subset hw), fun w hw => h.near w (sub.subset hw),
    fun hx w hw => h.hand hx w (sub.subset hw), by rw [ems]; exact h.msg, h.out, fun q hq => h.ver q (sw q hq),
    fun q hq => h.opens q (sw q hq), fun q hq => h.own q (sw q hq)⟩

/-- The background task of the receiver handles the first message. -/
theorem flow_handle {x x' y : EP} {d : Dir} {w : Nat} {m : Msg} {rest : List (Nat × Msg)} (hR : 4 ≤ maxR)
    (h : Flow x y d) (hi : d.inq = (w, m) :: rest) (hx : Handled maxR x m x')
    (fx : Facts x y (content d)) (fx' : Facts x' y (content { d with inq := rest })) :
    Flow x' y { d with inq := rest } := by
  have est : stamps d = w :: stamps { d with inq := rest } := by
    unfold stamps
    rw [hi]
    rfl
  have ems : sentMsgs d = (w, m) :: sentMsgs { d with inq := rest } := by
    unfold sentMsgs
    rw [hi]
    rfl
  have hs := h.sorted
  rw [est, List.pairwise_cons] at hs
  obtain ⟨hle, hs⟩ := hs
  obtain ⟨hpast, hfin⟩ := h.msg (w, m) (by rw [ems]; exact List.mem_cons_self)
  have sub : ∀ u ∈ stamps { d with inq := rest }, u ∈ stamps d := by
    intro u hu
    rw [est]
    exact List.mem_cons_of_mem _ hu
  have subm : ∀ q ∈ sentMsgs { d with inq := rest }, q ∈ sentMsgs d := by
    intro q hq
    rw [ems]
    exact List.mem_cons_of_mem _ hq
  refine ⟨hs, fun u hu => h.past u (sub u hu), ?_, ?_, ?_, h.out, h.ver, ?_, h.own⟩
  · intro u hu
    have hu1 := hle u hu
    have hu2 := h.near u (sub u hu)
    rcases hx.lat with e | ⟨hf, e⟩ | e
    · omega
    · have := hfin hf
      dsimp only at this
      omega
    · have := hpast.2 _ e
      dsimp only at this
      omega
  · intro hh u hu
    obtain ⟨a, b, e⟩ := hx.hand hh
    have h1 := hpast.1 _ _ _ e
    have h2 := hle u hu
    dsimp only at h1
    rcases hx.lat with e' | ⟨hf, _⟩ | e'
    · omega
    · rw [e] at hf
      simp [Finish] at hf
    · rw [e] at e'
      cases e'
  · intro q hq
    obtain ⟨h1, h2⟩ := h.msg q (subm q hq)
    refine ⟨h1, fun hf => ?_⟩
    have e1 := fx.fin q.2 (mem_content (subm q hq)) hf
    have e2 := fx'.fin q.2 (mem_content hq) hf
    have := h2 hf
    omega
  · intro p hp
    have ho := h.opens p hp
    rcases hx.kept _ _ ho with hk | ⟨hf, e, hm⟩
    · exact hk
    · exfalso
      have h1 := hfin hf
      have h2 := hle p.sent (wire_stamp hp)
      have h3 := (h.ver p hp).1
      have h4 := fx.top
      have h5 := (fx.have_ p.ver).mp (by rw [ho]; rfl)
      dsimp only at h1
      omega

/-- The background task of the receiver does something else. -/
theorem flow_other {x x' y : EP} {d : Dir} {ms : List Msg} (hR : 4 ≤ maxR) (h : Flow x y d) (hx : Other maxR x x' ms)
    (fx : Facts x y (content d)) : Flow x' y d := by
  refine ⟨h.sorted, h.past, ?_, ?_, ?_, h.out, h.ver, ?_, h.own⟩
  · rw [hx.lat]
    exact h.near
  · intro hh
    rw [hx.lat]
    exact h.hand (hx.hand hh)
  · rw [hx.lat]
    exact h.msg
  · intro p hp
    have ho := h.opens p hp
    have h5 := (fx.have_ p.ver).mp (by rw [ho]; rfl)
    rcases hx.kept _ _ ho (by omega) with hk | ⟨hf, e, hm⟩
    · exact hk
    · exfalso
      have h1 := h.hand hf p.sent (wire_stamp hp)
      have h3 := (h.ver p hp).1
      have h4 := fx.top
      omega

/-- The receiver's trigger task runs. -/
theorem flow_same {x x' y y' : EP} {d : Dir} (h : Flow x y d) (hl : x'.latest = x.latest) (hk : x'.keys = x.keys)
    (hb : x'.b = x.b) (hl' : y'.latest = y.latest) (hk' : y'.keys = y.keys) : Flow x' y' d := by
  have hh : Hand x' → Hand x := by
    unfold Hand
    rw [hb]
    exact id
  refine ⟨h.sorted, ?_, ?_, ?_, ?_, ?_, h.ver, ?_, ?_⟩
  · rw [hl']; exact h.past
  · rw [hl]; exact h.near
  · intro hx
    rw [hl]
    exact h.hand (hh hx)
  · rw [hl]; exact h.msg
  · rw [hl']; exact h.out
  · rw [hk]; exact h.opens
  · rw [hk']; exact h.own

/-- The ratchets an endpoint needs to open the answers to its packets survive. -/
theorem own_kept {x y y' : EP} {d : Dir} (hR : 4 ≤ maxR) (h : Flow x y d) (fy : y.most ≤ y.latest + 1)
    (hv : ∀ u, (y.keys u).isSome = true ↔ y.oldest ≤ u ∧ u ≤ y.most)
    (hk : ∀ u k, y.keys u = some k → u ≠ y.most + 1 →
      y'.keys u = some k ∨ (y.latest = x.latest ∧ u = y.oldest ∧ maxR ≤ y.most - y.oldest + 1)) :
    ∀ p ∈ d.wire, p.reply = false → y.keys p.ver = some p.key → y'.keys p.ver = some p.key := by
  intro p hp hr hpk
  have h5 := (hv p.ver).mp (by rw [hpk]; rfl)
  rcases hk _ _ hpk (by omega) with hk | ⟨hf, e, hm⟩
  · exact hk
  · exfalso
    have h1 := h.near p.sent (wire_stamp hp)
    have h3 := (h.ver p hp).2 hr
    omega

/-! ### Whole executions -/

theorem bSettle_latest (maxR : Nat) (init : Bool) : ∀ (n : Nat) (x : EP), x.latest ≤ (bSettle maxR init n x).latest := by
  intro n
  induction n with
  | zero => intro x; exact Nat.le_refl _
  | succ n ih =>
    intro x
    rw [bSettle]
    split
    · exact Nat.le_refl _
    · exact Nat.le_trans (bLocal_latest maxR init x) (ih _)

theorem bMacro_latest (maxR : Nat) (init : Bool) (x : EP) (inn : List Msg) (fr : Nat) :
    x.latest ≤ (bMacro maxR init x inn fr).1.latest :=
  Nat.le_trans (bStep_latest maxR init x inn fr) (bSettle_latest maxR init _ _)

theorem bMacro_nil {init : Bool} {x : EP} {fr : Nat} (hb : x.b = .recv) : bMacro maxR init x [] fr = (x, [], []) := by
  unfold bMacro
  simp only [bStep, hb]
  rw [bSettle_stop (by rw [hb]; rfl)]

theorem bMacro_cons {init : Bool} {x : EP} {fr : Nat} {m : Msg} (hb : x.b = .recv) (l l' : List Msg) :
    bMacro maxR init x (m :: l) fr = ((bMacro maxR init x (m :: l') fr).1, l, []) := by
  unfold bMacro
  simp only [bStep, hb]

theorem bMacro_other {init : Bool} {x : EP} {fr : Nat} (hb : x.b ≠ .recv) (l l' : List Msg) :
    bMacro maxR init x l fr = ((bMacro maxR init x l' fr).1, l, (bMacro maxR init x l' fr).2.2) := by
  unfold bMacro
  cases h : x.b <;> first | exact absurd h hb | simp only [bStep, h]

theorem past_finish {w : Nat} {m : Msg} (h : Finish m) : Past w m := by
  rcases h with ⟨v, rfl⟩ | rfl <;> exact ⟨(fun _ _ _ e => by cases e), (fun _ e => by cases e)⟩

/-- A step of the background task of `x`. -/
theorem bg_pair {init : Bool} {x y : EP} {dx dy : Dir} {fr : Nat} (hR : 4 ≤ maxR) (fl : Flow x y dx) (fl' : Flow y x dy)
    (fx : Facts x y (content dx)) (hf : ¬ Failed (bMacro maxR init x (content dx) fr).1) :
    bgD maxR init x dx dy fr = (x, dx, dy) ∨
    (bMacro maxR init x (content dx) fr).1 = (bgD maxR init x dx dy fr).1 ∧
    (bMacro maxR init x (content dx) fr).2.1 = content (bgD maxR init x dx dy fr).2.1 ∧
    content dy ++ (bMacro maxR init x (content dx) fr).2.2 = content (bgD maxR init x dx dy fr).2.2 ∧
    (Facts (bgD maxR init x dx dy fr).1 y (content (bgD maxR init x dx dy fr).2.1) →
      Flow (bgD maxR init x dx dy fr).1 y (bgD maxR init x dx dy fr).2.1 ∧
      Flow y (bgD maxR init x dx dy fr).1 (bgD maxR init x dx dy fr).2.2) := by
  by_cases hb : x.b = .recv
  · cases hi : dx.inq with
    | nil =>
      left
      unfold bgD
      rw [hi, if_pos hb]
      simp only [List.map_nil, List.tail_nil, bMacro_nil hb, List.append_nil]
      rw [← hi]
    | cons q rest =>
      obtain ⟨w, m⟩ := q
      right
      have hc : content dx = m :: content { dx with inq := rest } := by
        unfold content sentMsgs
        rw [hi]
        rfl
      have e := bMacro_cons (maxR := maxR) (init := init) (fr := fr) (m := m) hb (rest.map Prod.snd)
        (content { dx with inq := rest })
      have hd : bgD maxR init x dx dy fr = ((bMacro maxR init x (content dx) fr).1, { dx with inq := rest },
          { dy with out := dy.out ++ [] }) := by
        unfold bgD
        rw [hi, if_pos hb, hc]
        simp only [List.map_cons, List.tail_cons]
        rw [e]
      rw [hd]
      rw [hc] at hf ⊢
      have e2 := bMacro_cons (maxR := maxR) (init := init) (fr := fr) (m := m) hb (content { dx with inq := rest })
        (content { dx with inq := rest })
      refine ⟨rfl, by rw [e2], by rw [e2]; simp [content, sentMsgs], fun fx' => ?_⟩
      have hh := handled hb hf
      refine ⟨flow_handle hR fl hi hh fx fx', flow_sender fl' (bMacro_latest ..) (by simp) ?_⟩
      refine own_kept hR fl' fx.top fx.have_ ?_
      intro u k hk _
      rcases hh.kept u k hk with h | ⟨h1, h2, h3⟩
      · exact Or.inl h
      · exact Or.inr ⟨fx.fin m (by rw [hc]; exact List.mem_cons_self) h1, h2, h3⟩
  · right
    have e := bMacro_other (maxR := maxR) (init := init) (fr := fr) hb (content dx) (dx.inq.map Prod.snd)
    have hd : bgD maxR init x dx dy fr = ((bMacro maxR init x (content dx) fr).1, dx,
        { dy with out := dy.out ++ (bMacro maxR init x (content dx) fr).2.2 }) := by
      unfold bgD
      rw [if_neg hb, e]
    obtain ⟨k0, hk0, _⟩ := fx.cur
    obtain ⟨ho, hin⟩ := other hb fx.point fx.ok (by rw [hk0]; rfl) hf
    rw [hd]
    refine ⟨rfl, hin, by simp [content, sentMsgs], fun fx' => ?_⟩
    refine ⟨flow_other hR fl ho fx, flow_sender fl' (Nat.le_of_eq ho.lat.symm) ?_ ?_⟩
    · intro m hm
      dsimp only
      rw [ho.lat]
      rcases ho.out m hm with ⟨a, b, rfl, hbs⟩ | rfl | h
      · rw [fx.bmeta a b hbs]
        exact ⟨(fun _ _ _ e => by cases e; exact Nat.le_refl _), (fun _ e => by cases e)⟩
      · exact ⟨(fun _ _ _ e => by cases e), (fun _ e => by cases e; exact Nat.le_refl _)⟩
      · exact past_finish h
    · refine own_kept hR fl' fx.top fx.have_ ?_
      intro u k hk hne
      rcases ho.kept u k hk hne with h | ⟨h1, h2, h3⟩
      · exact Or.inl h
      · exact Or.inr ⟨fx.hand h1, h2, h3⟩

/-- Forget where a message is. -/
def er (s : DSys) : Sys := ⟨s.i, s.n, content s.toI, content s.toN⟩

structure DInv (maxR : Nat) (s : DSys) : Prop where
  inv : Inv maxR (er s)
  toI : Flow s.i s.n s.toI
  toN : Flow s.n s.i s.toN

theorem content_transmit (x : EP) (d : Dir) : content (transmit x d) = content d := by
  unfold transmit
  split
  · rename_i m rest v k h1 h2
    simp [content, sentMsgs, h1]
  · rfl

theorem content_data (x : EP) (d : Dir) : content (sendData x d) = content d := by
  unfold sendData
  split
  · simp [content, sentMsgs]
  · rfl

theorem content_deliver {x : EP} {answer : Bool} {d back : Dir} (h : ∀ p ∈ d.wire, opens x p) :
    content (deliver x answer d back).1 = content d ∧ content (deliver x answer d back).2 = content back := by
  unfold deliver
  split
  · exact ⟨rfl, rfl⟩
  · rename_i p rest hw
    rw [if_pos (h p (by rw [hw]; exact List.mem_cons_self))]
    constructor
    · simp [content, sentMsgs, hw]
    · dsimp only
      split
      · simp [content, sentMsgs]
      · rfl

theorem current_eq {x y : EP} {l : List Msg} (f : Facts x y l) :
    ∃ k, current x = some (x.latest, k) ∧ x.keys x.latest = some k ∧ y.keys x.latest = some k := by
  obtain ⟨k, h1, h2⟩ := f.cur
  exact ⟨k, by rw [current, h1], h1, h2⟩

/-- `y` sends to `x`. -/
theorem flow_transmit {x y : EP} {d : Dir} {l : List Msg} (h : Flow x y d) (fx : Facts x y (content d))
    (fy : Facts y x l) : Flow x y (transmit y d) := by
  obtain ⟨k, hc, h1, h2⟩ := current_eq fy
  unfold transmit
  rw [hc]
  cases ho : d.out with
  | nil => exact h
  | cons m rest =>
    refine flow_push h rfl rfl (fun q hq => ?_) rfl fx.close fx.hand ?_ ⟨Nat.le_succ _, fun _ => rfl⟩ h2 (fun _ => h1)
    · rw [ho]
      exact List.mem_cons_of_mem _ hq
    · intro m' e
      cases e
      have hm : m ∈ d.out := by rw [ho]; exact List.mem_cons_self
      exact ⟨h.out m hm, fx.fin m (List.mem_append.mpr (Or.inr hm))⟩

theorem flow_data {x y : EP} {d : Dir} {l : List Msg} (h : Flow x y d) (fx : Facts x y (content d))
    (fy : Facts y x l) : Flow x y (sendData y d) := by
  obtain ⟨k, hc, h1, h2⟩ := current_eq fy
  unfold sendData
  rw [hc]
  exact flow_push h rfl rfl (fun _ hq => hq) rfl fx.close fx.hand (fun _ e => by cases e)
    ⟨Nat.le_succ _, fun _ => rfl⟩ h2 (fun _ => h1)

theorem flow_deliver_both {x y : EP} {dx dy : Dir} {answer : Bool} (h : Flow x y dx) (h' : Flow y x dy)
    (fy : Facts y x (content dy)) :
    Flow x y (deliver x answer dx dy).1 ∧ Flow y x (deliver x answer dx dy).2 := by
  unfold deliver
  split
  · exact ⟨h, h'⟩
  · rename_i p rest hw
    have hp : p ∈ dx.wire := by rw [hw]; exact List.mem_cons_self
    rw [if_pos (show opens x p from h.opens p hp)]
    refine ⟨flow_deliver h hw, ?_⟩
    dsimp only
    split
    · rename_i ha
      have hv := (h.ver p hp).2 ha.2
      have hn := h.near p.sent (wire_stamp hp)
      exact flow_push h' rfl rfl (fun _ hq => hq) rfl fy.close fy.hand (fun _ e => by cases e)
        ⟨by dsimp only; omega, (fun e => by cases e)⟩ (h.own p hp ha.2) (fun e => by cases e)
    · exact h'

theorem dinv_step (hR : 4 ≤ maxR) {s : DSys} (h : DInv maxR s) (a : DAct) : DInv maxR (dStep maxR s a) := by
  obtain ⟨fI, fN⟩ := facts h.inv
  have hR3 : 3 ≤ maxR := by omega
  cases a with
  | act a =>
    have hstep := inv_step hR3 h.inv a
    cases a with
    | bg who fr =>
      cases who with
      | true =>
        rw [dStep]
        split
        · rename_i hen
          have hen' : bgEnabled (er s).i = true := hen
          simp only [coopStep, hen', if_true] at hstep
          have hok := (inv_ok hstep).1
          rcases bg_pair (init := true) (fr := fr) hR h.toI h.toN fI hok with e | ⟨e1, e2, e3, hfl⟩
          · rw [e]
            exact h
          · have hinv : Inv maxR (er ⟨(bgD maxR true s.i s.toI s.toN fr).1, s.n,
                (bgD maxR true s.i s.toI s.toN fr).2.1, (bgD maxR true s.i s.toI s.toN fr).2.2⟩) := by
              unfold er
              dsimp only
              rw [← e1, ← e2, ← e3]
              exact hstep
            obtain ⟨h1, h2⟩ := hfl (facts hinv).1
            exact ⟨hinv, h1, h2⟩
        · exact h
      | false =>
        rw [dStep]
        split
        · rename_i hen
          have hen' : bgEnabled (er s).n = true := hen
          simp only [coopStep, hen', if_true] at hstep
          have hok := (inv_ok hstep).2
          rcases bg_pair (init := false) (fr := fr) hR h.toN h.toI fN hok with e | ⟨e1, e2, e3, hfl⟩
          · rw [e]
            exact h
          · have hinv : Inv maxR (er ⟨s.i, (bgD maxR false s.n s.toN s.toI fr).1,
                (bgD maxR false s.n s.toN s.toI fr).2.2, (bgD maxR false s.n s.toN s.toI fr).2.1⟩) := by
              unfold er
              dsimp only
              rw [← e1, ← e2, ← e3]
              exact hstep
            obtain ⟨h1, h2⟩ := hfl (facts hinv).2
            exact ⟨hinv, h2, h1⟩
        · exact h
    | trig who fr =>
      have past : ∀ (x : EP) w, ∀ m ∈ (tMacro x fr).2, Past w m := by
        intro x w m hm
        obtain ⟨a, l, c, rfl⟩ := (trig_keeps x fr).2.2.2 m hm
        exact ⟨(fun _ _ _ e => by cases e), (fun _ e => by cases e)⟩
      cases who with
      | true =>
        obtain ⟨t1, t2, t3, _⟩ := trig_keeps s.i fr
        have e : er (dStep maxR s (.act (.trig true fr))) = coopStep maxR (er s) (.trig true fr) := by
          simp [dStep, er, coopStep, content, sentMsgs]
        refine ⟨by rw [e]; exact hstep, flow_same h.toI t1 t2 t3 rfl rfl,
          flow_sender h.toN (Nat.le_of_eq t1.symm) (past _ _) ?_⟩
        intro p _ _ hp
        show (tMacro s.i fr).1.keys p.ver = some p.key
        rw [t2]
        exact hp
      | false =>
        obtain ⟨t1, t2, t3, _⟩ := trig_keeps s.n fr
        have e : er (dStep maxR s (.act (.trig false fr))) = coopStep maxR (er s) (.trig false fr) := by
          simp [dStep, er, coopStep, content, sentMsgs]
        refine ⟨by rw [e]; exact hstep, flow_sender h.toI (Nat.le_of_eq t1.symm) (past _ _) ?_,
          flow_same h.toN t1 t2 t3 rfl rfl⟩
        intro p _ _ hp
        show (tMacro s.n fr).1.keys p.ver = some p.key
        rw [t2]
        exact hp
  | transmit who =>
    cases who with
    | true =>
      refine ⟨?_, h.toI, flow_transmit h.toN fN fI⟩
      have : er (dStep maxR s (.transmit true)) = er s := by simp only [dStep, er, content_transmit]
      rw [this]
      exact h.inv
    | false =>
      refine ⟨?_, flow_transmit h.toI fI fN, h.toN⟩
      have : er (dStep maxR s (.transmit false)) = er s := by simp only [dStep, er, content_transmit]
      rw [this]
      exact h.inv
  | data who =>
    cases who with
    | true =>
      refine ⟨?_, h.toI, flow_data h.toN fN fI⟩
      have : er (dStep maxR s (.data true)) = er s := by simp only [dStep, er, content_data]
      rw [this]
      exact h.inv
    | false =>
      refine ⟨?_, flow_data h.toI fI fN, h.toN⟩
      have : er (dStep maxR s (.data false)) = er s := by simp only [dStep, er, content_data]
      rw [this]
      exact h.inv
  | deliver who answer =>
    cases who with
    | true =>
      obtain ⟨h1, h2⟩ := flow_deliver_both (answer := answer) h.toI h.toN fN
      obtain ⟨c1, c2⟩ := content_deliver (answer := answer) (back := s.toN) h.toI.opens
      refine ⟨?_, h1, h2⟩
      have : er (dStep maxR s (.deliver true answer)) = er s := by simp only [dStep, er, c1, c2]
      rw [this]
      exact h.inv
    | false =>
      obtain ⟨h1, h2⟩ := flow_deliver_both (answer := answer) h.toN h.toI fI
      obtain ⟨c1, c2⟩ := content_deliver (answer := answer) (back := s.toI) h.toN.opens
      refine ⟨?_, h2, h1⟩
      have : er (dStep maxR s (.deliver false answer)) = er s := by simp only [dStep, er, c1, c2]
      rw [this]
      exact h.inv

theorem dinv_start (maxR v : Nat) (k : Key) : DInv maxR (dStart v k) := by
  have empty : ∀ x y : EP, Flow x y ⟨[], [], []⟩ := fun x y =>
    ⟨List.Pairwise.nil, by simp [stamps], by simp [stamps], by simp [stamps], by simp [sentMsgs], by simp, by simp,
      by simp, by simp⟩
  exact ⟨inv_start maxR v k, empty _ _, empty _ _⟩

theorem dinv_run (hR : 4 ≤ maxR) : ∀ (acts : List DAct) {s : DSys}, DInv maxR s → DInv maxR (dRun maxR s acts) := by
  intro acts
  induction acts with
  | nil => intro s h; exact h
  | cons a as ih => intro s h; exact ih (dinv_step hR h a)

/-- Moving messages about is invisible to the protocol. -/
theorem er_step (hR : 4 ≤ maxR) {s : DSys} (h : DInv maxR s) (a : DAct) :
    er (dStep maxR s a) = er s ∨ ∃ a', er (dStep maxR s a) = coopStep maxR (er s) a' := by
  obtain ⟨fI, fN⟩ := facts h.inv
  have hR3 : 3 ≤ maxR := by omega
  cases a with
  | act a =>
    have hstep := inv_step hR3 h.inv a
    cases a with
    | bg who fr =>
      cases who with
      | true =>
        by_cases hen : bgEnabled s.i = true
        · have hen' : bgEnabled (er s).i = true := hen
          simp only [coopStep, hen', if_true] at hstep
          rcases bg_pair (init := true) (fr := fr) hR h.toI h.toN fI (inv_ok hstep).1 with e | ⟨e1, e2, e3, _⟩
          · left
            simp only [dStep, hen, if_true, e]
          · refine Or.inr ⟨.bg true fr, ?_⟩
            simp only [dStep, coopStep, hen, if_true, er]
            rw [← e1, ← e2, ← e3]
        · left
          rw [dStep, if_neg hen]
      | false =>
        by_cases hen : bgEnabled s.n = true
        · have hen' : bgEnabled (er s).n = true := hen
          simp only [coopStep, hen', if_true] at hstep
          rcases bg_pair (init := false) (fr := fr) hR h.toN h.toI fN (inv_ok hstep).2 with e | ⟨e1, e2, e3, _⟩
          · left
            simp only [dStep, hen, if_true, e]
          · refine Or.inr ⟨.bg false fr, ?_⟩
            simp only [dStep, coopStep, hen, if_true, er]
            rw [← e1, ← e2, ← e3]
        · left
          rw [dStep, if_neg hen]
    | trig who fr =>
      refine Or.inr ⟨.trig who fr, ?_⟩
      cases who <;> simp [dStep, er, coopStep, content, sentMsgs]
  | transmit who => left; cases who <;> simp only [dStep, er, content_transmit]
  | data who => left; cases who <;> simp only [dStep, er, content_data]
  | deliver who answer =>
    left
    cases who with
    | true =>
      obtain ⟨c1, c2⟩ := content_deliver (answer := answer) (back := s.toN) h.toI.opens
      simp only [dStep, er, c1, c2]
    | false =>
      obtain ⟨c1, c2⟩ := content_deliver (answer := answer) (back := s.toI) h.toN.opens
      simp only [dStep, er, c1, c2]

theorem er_run (hR : 4 ≤ maxR) : ∀ (acts : List DAct) {s : DSys}, DInv maxR s →
    ∃ acts', er (dRun maxR s acts) = run (coopStep maxR) (er s) acts' := by
  intro acts
  induction acts with
  | nil => intro s _; exact ⟨[], rfl⟩
  | cons a as ih =>
    intro s h
    obtain ⟨as', e⟩ := ih (dinv_step hR h a)
    rcases er_step hR h a with e' | ⟨a', e'⟩
    · exact ⟨as', by rw [dRun, e, e']⟩
    · exact ⟨a' :: as', by rw [dRun, e, e']; rfl⟩

/-! ### C35 -/

/-- Under cooperative scheduling every packet on the wire can be opened by its receiver, at all times until it is
delivered, however long it has been under way, and however many re-keys are started meanwhile: re-key messages, other
packets encrypted with the ratchet of the moment, and answers encrypted with the ratchet of the packet they answer.
Missing: a preemptive scheduler, packets that keep an older ratchet (`C84`), and packets that overtake others. -/
theorem C35_in_flight_partial (hR : 4 ≤ maxR) (v : Nat) (k : Key) (acts : List DAct) :
    AllOpen (dRun maxR (dStart v k) acts) :=
  let h := dinv_run hR acts (dinv_start maxR v k)
  ⟨h.toI.opens, h.toN.opens⟩

/-- The endpoints cannot tell queues and wires from the channels of the model without them: what was shown there holds
here. -/
theorem C35_wire_is_channel_partial (hR : 4 ≤ maxR) (v : Nat) (k : Key) (acts : List DAct) :
    ∃ acts', (dRun maxR (dStart v k) acts).i = (run (coopStep maxR) (start v k) acts').i ∧
      (dRun maxR (dStart v k) acts).n = (run (coopStep maxR) (start v k) acts').n := by
  obtain ⟨acts', e⟩ := er_run hR acts (dinv_start maxR v k)
  refine ⟨acts', ?_, ?_⟩
  · rw [show start v k = er (dStart v k) from rfl, ← e]; rfl
  · rw [show start v k = er (dStart v k) from rfl, ← e]; rfl

/-- A re-key with packets of both versions, messages and answers on one wire at the same time. -/
def mixed : List DAct :=
  [.data true, .data false] ++ List.replicate 4 (.act (.trig true 7)) ++
  [.transmit true, .deliver false true, .deliver false false] ++ List.replicate 6 (.act (.bg false 8)) ++
  [.transmit false, .deliver true false, .deliver true false, .deliver true false, .data false] ++
  List.replicate 4 (.act (.bg true 8)) ++ [.data true, .transmit true, .deliver false true, .deliver false true] ++
  List.replicate 3 (.act (.bg false 8)) ++ [.data false, .transmit false]

example :
    let s := dRun 4 (dStart 0 ⟨0, 0⟩) mixed
    s.toI.wire.map (fun p => (p.ver, p.reply, p.body.isSome)) =
        [(0, false, false), (0, true, false), (0, true, false), (1, false, false), (1, false, true)] ∧
      s.i.latest = 0 ∧ s.n.latest = 1 := by decide +kernel

end Verif.Rekey

import Verif.Rekey.Data
/-
How often an endpoint uses one ratchet for messages in perfect-secrecy mode.

In that mode a message always travels with the first packet of a re-key (`AliceToBob`, see `Verif.Messenger`), so that
every message has its own ratchet: /repo/citadel_crypt/src/messaging.rs lines 268-271.
-/
namespace Verif.Rekey

variable {maxR : Nat}

/-- The version of the ratchet a message of the endpoint `who` is encrypted with in this step, if it sends one. -/
def messageSent (who : Bool) (s : DSys) : DAct → List Nat
  | .transmit w =>
    if w = who then
      match (if who then s.toN.out else s.toI.out), current (if who then s.i else s.n) with
      | .aliceToBob _ _ _ :: _, some (v, _) => [v]
      | _, _ => []
    else []
  | _ => []

/-- The versions of the ratchets the messages of the endpoint `who` are encrypted with during these steps. -/
def messagesSent (maxR : Nat) (who : Bool) : DSys → List DAct → List Nat
  | _, [] => []
  | s, a :: as => messageSent who s a ++ messagesSent maxR who (dStep maxR s a) as

/-! ### What the background task does to the declared version -/

def isProposal : Msg → Bool
  | .aliceToBob _ _ _ => true
  | _ => false

/-- Untouched so far. -/
def Untouched (x0 x : EP) : Prop :=
  x.latest = x0.latest ∧ x.declared = x0.declared ∧ (x.role = x0.role ∨ x.role = .leader)

/-- The state of the background task while it handles the message `m`, received in the state `x0`. -/
def TrackD (x0 : EP) (m : Msg) (x : EP) : Prop :=
  match x.b with
  | .lRole _ => Finish m
  | .lBump => Finish m
  | .lSync => Finish m
  | .lRemove => Finish m
  | .lSend => Finish m
  | .fRole v => m = .leaderCanFinish v
  | .fBump v => m = .leaderCanFinish v
  | .fSync v => m = .leaderCanFinish v
  | .retain => m = .leaderCanFinish x.latest
  | .errToggle => True
  | .b2aMeta _ _ _ => Untouched x0 x
  | .b2aRole _ _ _ => Untouched x0 x
  | .b2aHas _ _ _ => Untouched x0 x
  | .b2aTake _ _ _ => Untouched x0 x
  | .aToggle _ _ => Untouched x0 x
  | .recv => Untouched x0 x
  | .a2bBarrier _ _ _ => Untouched x0 x
  | .a2bValidate _ _ => Untouched x0 x
  | .stale _ => Untouched x0 x
  | .bToggle _ => Untouched x0 x
  | _ => False

theorem skip_trackD {x0 x : EP} {m : Msg} (h : Untouched x0 x) : TrackD x0 m (skip x) := by
  unfold skip
  split
  · trivial
  · exact h

theorem trackD_step {init : Bool} {x0 x : EP} {m : Msg} (hp : bPoint x.b = false) (h : TrackD x0 m x) :
    TrackD x0 m (bLocal maxR init x) := by
  cases hb : x.b <;> simp only [TrackD, hb] at h <;> rw [hb] at hp <;>
    first | (exact absurd hp (by decide)) | skip
  case bToggle a => simp [bPoint] at hp
  case aToggle a b => simp [bPoint] at hp
  case a2bBarrier a lat cur =>
    simp only [bLocal, hb]
    repeat' split
    all_goals first | trivial | exact h
  case stale next => simp only [bLocal, hb]; exact skip_trackD h
  case a2bValidate a cur =>
    simp only [bLocal, hb]
    split
    · exact skip_trackD h
    · repeat' split
      all_goals first | trivial | exact h
  case b2aMeta a b cur =>
    simp only [bLocal, hb]
    repeat' split
    all_goals first | trivial | exact h
  case b2aRole a b cur =>
    simp only [bLocal, hb]
    split
    · exact skip_trackD h
    · exact ⟨h.1, h.2.1, Or.inr rfl⟩
  case b2aHas a b cur =>
    simp only [bLocal, hb]
    split
    · exact skip_trackD h
    · exact h
  case b2aTake a b cur =>
    simp only [bLocal, hb]
    split
    · exact h
    · trivial
  case lRole t =>
    simp only [bLocal, hb]
    repeat' split
    all_goals first | trivial | exact h
  case lBump =>
    simp only [bLocal, hb]
    split <;> exact h
  case lSync => simp only [bLocal, hb]; exact h
  case lRemove => simp only [bLocal, hb]; exact h
  case fRole v =>
    simp only [bLocal, hb]
    split
    · trivial
    · exact h
  case fBump v =>
    simp only [bLocal, hb]
    split <;> exact h
  case fSync v =>
    simp only [bLocal, hb]
    split
    · trivial
    · rename_i hv
      show m = .leaderCanFinish x.latest
      rw [h]
      congr 1
      exact (Decidable.not_not.mp hv).symm

theorem trackD_settle {init : Bool} {x0 : EP} {m : Msg} : ∀ (n : Nat) (x : EP), TrackD x0 m x →
    TrackD x0 m (bSettle maxR init n x) := by
  intro n
  induction n with
  | zero => intro x h; exact h
  | succ n ih =>
    intro x h
    rw [bSettle]
    cases hp : bPoint x.b with
    | true => exact h
    | false => exact ih _ (trackD_step hp h)

/-- Handling a message. -/
theorem handledD {init : Bool} {x : EP} {m : Msg} {rest : List Msg} {fr : Nat} (hb : x.b = .recv)
    (hf : ¬ Failed (bMacro maxR init x (m :: rest) fr).1) :
    Untouched x (bMacro maxR init x (m :: rest) fr).1 ∨ Finish m ∨
      m = .leaderCanFinish (bMacro maxR init x (m :: rest) fr).1.latest := by
  have h : TrackD x m (bMacro maxR init x (m :: rest) fr).1 := by
    unfold bMacro
    simp only [bStep, hb]
    apply trackD_settle
    cases m with
    | aliceToBob a lat cur => exact ⟨rfl, rfl, Or.inl rfl⟩
    | bobToAlice a b cur => exact ⟨rfl, rfl, Or.inl rfl⟩
    | truncate v => exact Or.inl ⟨v, rfl⟩
    | loserCanFinish => exact Or.inr rfl
    | leaderCanFinish v => rfl
  have hp := bMacro_point maxR init x (m :: rest) fr
  generalize (bMacro maxR init x (m :: rest) fr).1 = x' at h hf hp
  cases hb' : x'.b <;> simp only [TrackD, hb'] at h <;> simp only [hb', bPoint] at hp
  case errToggle => exact absurd (Or.inl hb') hf
  case lSend => exact Or.inr (Or.inl h)
  case retain => exact Or.inr (Or.inr h)
  all_goals first
    | exact Or.inl h
    | exact absurd hp (by decide)

theorem bLocal_t (maxR : Nat) (init : Bool) (y : EP) : (bLocal maxR init y).t = y.t := by
  unfold bLocal
  repeat' split
  all_goals first
    | rfl
    | (unfold skip; split <;> rfl)
    | skip
  all_goals
    rename_i x' hd
    unfold dereg at hd
    repeat' split at hd
    all_goals first
      | (cases hd; done)
      | (injection hd with hd; subst hd; rfl)

theorem bSettle_t (maxR : Nat) (init : Bool) : ∀ (n : Nat) (x : EP), (bSettle maxR init n x).t = x.t := by
  intro n
  induction n with
  | zero => intro x; rfl
  | succ n ih =>
    intro x
    rw [bSettle]
    split
    · rfl
    · rw [ih, bLocal_t]

theorem bMacro_t (maxR : Nat) (init : Bool) (x : EP) (inn : List Msg) (fr : Nat) :
    (bMacro maxR init x inn fr).1.t = x.t := by
  unfold bMacro
  dsimp only
  rw [bSettle_t]
  unfold bStep
  repeat' split
  all_goals first
    | rfl
    | exact bLocal_t _ _ _

/-- A step that takes no message. -/
structure OtherD (x x' : EP) (out : List Msg) : Prop where
  lat : x'.latest = x.latest
  dec : x'.declared = x.declared
  msgs : ∀ m ∈ out, isProposal m = false
  loser : x'.b = .recv → x'.role = .loser → (∃ a b, x.b = .bSend a b ∧ out = [.bobToAlice a b x.rmeta]) ∨
    ((∃ v, x.b = .aSendTrunc v) ∨ x.b = .aSendLoser) ∧ x.role = .loser

theorem otherD {init : Bool} {x : EP} {inn : List Msg} {fr : Nat} (hb : x.b ≠ .recv) (hp : bPoint x.b = true)
    (hf : ¬ Failed x) (hk : (x.keys x.latest).isSome = true) (hf' : ¬ Failed (bMacro maxR init x inn fr).1) :
    OtherD x (bMacro maxR init x inn fr).1 (bMacro maxR init x inn fr).2.2 := by
  have nil : ∀ m ∈ ([] : List Msg), isProposal m = false := by intro m hm; cases hm
  cases hb' : x.b <;> simp only [hb', bPoint] at hp <;> first | (exact absurd hp (by decide)) | skip
  case recv => exact absurd hb' hb
  case errToggle => exact absurd (Or.inl hb') hf
  case bToggle a =>
    by_cases h : x.tog = true ∧ init = false
    · rw [bMacro_bToggle_contended hb' h.1 h.2]
      exact ⟨rfl, rfl, nil, fun h => by simp at h⟩
    · rw [bMacro_bToggle_commit hb' (by
        cases ht : x.tog with
        | false => exact Or.inl rfl
        | true =>
          cases hi : init with
          | true => exact Or.inr rfl
          | false => exact absurd ⟨ht, hi⟩ h)]
      exact ⟨rfl, rfl, nil, fun h => by simp at h⟩
  case bContended => rw [bMacro_bContended hb']; exact ⟨rfl, rfl, nil, fun _ h => by simp at h⟩
  case bCommit a => rw [bMacro_bCommit hb']; exact ⟨rfl, rfl, nil, fun h => by simp at h⟩
  case bToggle2 a b => rw [bMacro_bToggle2 hb']; exact ⟨rfl, rfl, nil, fun h => by simp at h⟩
  case bSend a b =>
    rw [bMacro_bSend hb']
    exact ⟨rfl, rfl, by simp [isProposal], fun _ _ => Or.inl ⟨a, b, hb', rfl⟩⟩
  case aToggle a b => rw [bMacro_aToggle hb']; exact ⟨rfl, rfl, nil, fun h => by simp at h⟩
  case aCommit a b =>
    by_cases hm : (x.most + 1) - x.oldest + 1 ≥ maxR
    · rw [bMacro_aCommit_full hb' hm]; exact ⟨rfl, rfl, nil, fun h => by simp at h⟩
    · rw [bMacro_aCommit_room hb' hm]; exact ⟨rfl, rfl, nil, fun h => by simp at h⟩
  case aDereg v =>
    have bad : dereg maxR x v = none → False := by
      intro hd
      apply hf'
      have e : bMacro maxR init x inn fr = ({ x with b := .errToggle }, inn, []) := by
        simp only [bMacro, bStep, hb', bLocal, hd]
        rw [bSettle_stop rfl]
      rw [e]
      exact Or.inl rfl
    by_cases hm : x.most - x.oldest + 1 < maxR
    · exact (bad (by rw [dereg, if_pos hm])).elim
    · by_cases ho : x.oldest = v
      · rw [bMacro_aDereg hb' hm ho]; exact ⟨rfl, rfl, nil, fun h => by simp at h⟩
      · exact (bad (by rw [dereg, if_neg hm, if_pos ho])).elim
  case aSendTrunc v =>
    rw [bMacro_aSendTrunc hb']
    exact ⟨rfl, rfl, by simp [isProposal], fun _ h => Or.inr ⟨Or.inl ⟨v, hb'⟩, h⟩⟩
  case aSendLoser =>
    rw [bMacro_aSendLoser hb']
    exact ⟨rfl, rfl, by simp [isProposal], fun _ h => Or.inr ⟨Or.inr hb', h⟩⟩
  case lSend => rw [bMacro_lSend hb']; exact ⟨rfl, rfl, by simp [isProposal], fun h => by simp at h⟩
  case retain =>
    rw [bMacro_retain hb' hk]
    exact ⟨rfl, rfl, nil, fun _ h => by simp at h⟩

/-! ### Where messages and stages meet -/

theorem noise_proposals {q : Prop} {x : EP} {tr : List Msg} (h : Noise q x tr) : ∀ m ∈ tr, isProposal m = true := by
  have old : ∀ l, Old x.latest l → ∀ m ∈ l, isProposal m = true := by
    intro l hl m hm
    obtain ⟨a, u, e, _⟩ := hl m hm
    rw [e]
    rfl
  cases h.st with
  | rest _ ho _ => exact old _ ho
  | sent a pre _ htr ho _ _ _ =>
    rw [htr]
    intro m hm
    rcases List.mem_append.mp hm with hm | hm
    · exact old _ ho m hm
    · rw [List.mem_singleton.mp hm]
      rfl
  | fresh8 _ _ ho => exact old _ ho
  | fresh11 _ _ ho => exact old _ ho
  | fresh15 _ _ ho => exact old _ ho
  | stale8 _ _ _ _ ho => exact old _ ho
  | stale11 _ _ _ _ ho => exact old _ ho
  | stale15 _ _ _ _ ho => exact old _ ho
  | sleep _ _ _ _ ho => exact old _ ho

/-- Messages to the initiator by stage. -/
structure ToI (maxR : Nat) (s : Sys) : Prop where
  prop : ∀ m ∈ s.toI, isProposal m = true →
    s.n.t = .idle ∧ s.n.declared = s.n.latest + 1 ∧ (s.toI.countP isProposal ≤ 1)
  fin : ∀ m ∈ s.toI, Finish m → Fwd maxR s
  lead : ∀ v, .leaderCanFinish v ∈ s.toI → ICf s

theorem np_props {v : Nat} {x : EP} {l : List Msg} (h : NP v x l) :
    (∀ m ∈ l, isProposal m = true → x.t = .idle ∧ x.declared = v + 1) ∧ l.countP isProposal ≤ 1 ∧
      ∀ m ∈ l, isProposal m = true := by
  cases h with
  | out c ht hg hd hc hb => exact ⟨fun _ _ _ => ⟨ht, hd⟩, by simp [isProposal], by simp [isProposal]⟩
  | none => simp
  | fin => simp
  | t8 => simp
  | t11 => simp
  | t15 => simp

theorem toI_stage {s : Sys} (h : Inv maxR s) : ToI maxR s := by
  have nil : s.toI = [] → ToI maxR s := fun e => ⟨by simp [e], by simp [e], by simp [e]⟩
  have fin_no : ∀ m, Finish m → isProposal m = true → False := by
    rintro m (⟨v, rfl⟩ | rfl) h <;> simp [isProposal] at h
  cases h.stage with
  | quiet h =>
    obtain ⟨h1, h2, h3⟩ := np_props h.np
    refine ⟨fun m hm hp => ⟨(h1 m hm hp).1, (h1 m hm hp).2, h2⟩, fun m hm hf => (fin_no m hf (h3 m hm)).elim,
      fun v hm => ?_⟩
    have := h3 _ hm
    simp [isProposal] at this
  | bob h => exact nil h.toI
  | ans h => exact nil h.toI
  | lead h => exact nil h.toI
  | fwd h =>
    have hf := h.fw
    refine ⟨?_, fun _ _ _ => h, ?_⟩ <;> generalize s.toI = l at hf <;> cases hf <;> simp [isProposal]
  | ack h => exact nil h.toI
  | cf h => exact nil h.toI
  | ibob h => exact nil h.toI
  | ians h =>
    obtain ⟨c, b, _, _, e⟩ := h.an
    refine ⟨?_, ?_, ?_⟩ <;> rw [e] <;> simp [isProposal, Finish]
  | ilead h => exact nil h.toI
  | ifwd h => exact nil h.toI
  | iack h => exact nil h.toI
  | icf h =>
    obtain ⟨l, e, hn⟩ := h.an
    obtain ⟨h1, h2, h3⟩ := np_props hn
    refine ⟨?_, ?_, fun _ _ => h⟩
    · intro m hm hp
      rw [e] at hm
      rcases List.mem_cons.1 hm with rfl | hm
      · simp [isProposal] at hp
      · refine ⟨(h1 m hm hp).1, (h1 m hm hp).2, ?_⟩
        rw [e, List.countP_cons]
        simpa [isProposal] using h2
    · intro m hm hf
      rw [e] at hm
      rcases List.mem_cons.1 hm with rfl | hm
      · simp [Finish] at hf
      · exact (fin_no m hf (h3 m hm)).elim

/-- Messages to the non-initiator by stage. -/
structure ToN (maxR : Nat) (s : Sys) : Prop where
  fin : ∀ m ∈ s.toN, Finish m → s.n.declared = s.n.latest
  lead : ∀ v, .leaderCanFinish v ∈ s.toN → v = s.n.latest + 1

theorem toN_stage {s : Sys} (h : Inv maxR s) : ToN maxR s := by
  have nil : s.toN = [] → ToN maxR s := fun e => ⟨by simp [e], by simp [e]⟩
  have fin_no : ∀ m, Finish m → isProposal m = true → False := by
    rintro m (⟨v, rfl⟩ | rfl) h <;> simp [isProposal] at h
  have all : (∀ m ∈ s.toN, isProposal m = true) → ToN maxR s := fun h =>
    ⟨fun m hm hf => (fin_no m hf (h m hm)).elim, fun v hm => by have := h _ hm; simp [isProposal] at this⟩
  cases h.stage with
  | quiet h => exact all fun m hm => noise_proposals h.nz m (List.mem_append_right _ hm)
  | bob h => exact all fun m hm => noise_proposals h.nz m (List.mem_append_right _ hm)
  | ans h =>
    obtain ⟨c, b, x, y, _, _, e, hn, _⟩ := h.an
    have hm' : ∀ m ∈ s.toN, isProposal m = true ∨ m = .bobToAlice c b s.n.latest := by
      intro m hm
      rw [e] at hm
      rcases List.mem_append.1 hm with hm | hm
      · exact Or.inl (noise_proposals hn m (by simp [hm]))
      · rcases List.mem_cons.1 hm with rfl | hm
        · exact Or.inr rfl
        · exact Or.inl (noise_proposals hn m (by simp [hm]))
    refine ⟨fun m hm hf => ?_, fun v hm => ?_⟩
    · rcases hm' m hm with h | rfl
      · exact (fin_no m hf h).elim
      · simp [Finish] at hf
    · rcases hm' _ hm with h | h
      · simp [isProposal] at h
      · cases h
  | lead h => exact all fun m hm => noise_proposals h.nz m hm
  | fwd h => exact all fun m hm => noise_proposals h.nz m hm
  | ack h => exact all fun m hm => noise_proposals h.nz m hm
  | cf h =>
    obtain ⟨x, y, e, _, hn, _⟩ := h.an
    have hm' : ∀ m ∈ s.toN, isProposal m = true ∨ m = .leaderCanFinish (s.n.latest + 1) := by
      intro m hm
      rw [e] at hm
      rcases List.mem_append.1 hm with hm | hm
      · exact Or.inl (noise_proposals hn m (by simp [hm]))
      · rcases List.mem_cons.1 hm with rfl | hm
        · exact Or.inr rfl
        · exact Or.inl (noise_proposals hn m (by simp [hm]))
    refine ⟨fun m hm hf => ?_, fun v hm => ?_⟩
    · rcases hm' m hm with h | rfl
      · exact (fin_no m hf h).elim
      · simp [Finish] at hf
    · rcases hm' _ hm with h | h
      · simp [isProposal] at h
      · injection h
  | ibob h => exact nil h.toN
  | ians h => exact nil h.toN
  | ilead h => exact nil h.toN
  | ifwd h =>
    have hf := h.fw
    refine ⟨fun _ _ _ => by rw [h.dN, h.ver], ?_⟩
    generalize s.toN = l at hf
    cases hf <;> simp
  | iack h => exact nil h.toN
  | icf h => exact nil h.toN

/-! ### Steps with wires -/

theorem deliver_out (x : EP) (answer : Bool) (d back : Dir) :
    (deliver x answer d back).1.out = d.out ∧ (deliver x answer d back).2.out = back.out := by
  unfold deliver
  repeat' split
  all_goals exact ⟨rfl, rfl⟩

theorem data_out (x : EP) (d : Dir) : (sendData x d).out = d.out := by
  unfold sendData
  split <;> rfl

/-- A step of the background task. -/
theorem bgD_cases {init : Bool} {x y : EP} {dx dy : Dir} {fr : Nat} (fx : Facts x y (content dx))
    (hf : ¬ Failed (bgD maxR init x dx dy fr).1) :
    ((bgD maxR init x dx dy fr).1 = x ∧ (bgD maxR init x dx dy fr).2.2 = dy) ∨
    (∃ w m rest, x.b = .recv ∧ dx.inq = (w, m) :: rest ∧ (bgD maxR init x dx dy fr).2.2.out = dy.out ∧
      (bgD maxR init x dx dy fr).1 = (bMacro maxR init x (m :: rest.map Prod.snd) fr).1 ∧
      (Untouched x (bgD maxR init x dx dy fr).1 ∨ Finish m ∨ m = .leaderCanFinish (bgD maxR init x dx dy fr).1.latest)) ∨
    (∃ ms, x.b ≠ .recv ∧ (bgD maxR init x dx dy fr).2.2.out = dy.out ++ ms ∧
      OtherD x (bgD maxR init x dx dy fr).1 ms) := by
  by_cases hb : x.b = .recv
  · cases hi : dx.inq with
    | nil =>
      left
      unfold bgD
      rw [hi, List.map_nil, bMacro_nil hb]
      simp
    | cons p rest =>
      obtain ⟨w, m⟩ := p
      right; left
      have e : (bgD maxR init x dx dy fr).1 = (bMacro maxR init x (m :: rest.map Prod.snd) fr).1 := by
        unfold bgD
        rw [hi]
        rfl
      refine ⟨w, m, rest, hb, rfl, ?_, e, ?_⟩
      · unfold bgD
        rw [hi]
        simp [bMacro, bStep, hb]
      · rw [e] at hf ⊢
        exact handledD hb hf
  · right; right
    obtain ⟨k, hk, _⟩ := fx.cur
    refine ⟨_, hb, rfl, ?_⟩
    exact otherD hb fx.point fx.ok (by rw [hk]; rfl) hf

theorem bgD_t (maxR : Nat) (init : Bool) (x : EP) (dx dy : Dir) (fr : Nat) : (bgD maxR init x dx dy fr).1.t = x.t :=
  bMacro_t _ _ _ _ _

theorem bgD_latest (maxR : Nat) (init : Bool) (x : EP) (dx dy : Dir) (fr : Nat) :
    x.latest ≤ (bgD maxR init x dx dy fr).1.latest := bMacro_latest _ _ _ _ _

theorem inq_content {d : Dir} {w : Nat} {m : Msg} {rest : List (Nat × Msg)} (h : d.inq = (w, m) :: rest) :
    m ∈ content d := by
  simp [content, sentMsgs, h]

theorem out_content {d : Dir} {m : Msg} (h : m ∈ d.out) : m ∈ content d := by simp [content, h]

theorem out_count (d : Dir) (p : Msg → Bool) : d.out.countP p ≤ (content d).countP p := by
  simp [content, List.countP_append]

theorem count_zero {l : List Msg} (h : ∀ m ∈ l, isProposal m = false) : l.countP isProposal = 0 := by
  rw [List.countP_eq_zero]
  intro m hm
  simp [h m hm]

/-! ### The non-initiator -/

structure NInv (s : DSys) (H : List Nat) : Prop where
  le : ∀ h ∈ H, h ≤ s.n.latest
  once : s.n.latest ∈ H → s.n.t = .idle ∧ s.n.declared = s.n.latest + 1 ∧ s.toI.out.countP isProposal = 0
  sorted : H.Pairwise (· < ·)

theorem ninv_same {s s' : DSys} {H : List Nat} (h : NInv s H) (h1 : s'.n = s.n) (h2 : s'.toI.out = s.toI.out) :
    NInv s' H := ⟨by rw [h1]; exact h.le, by rw [h1, h2]; exact h.once, h.sorted⟩

theorem ninv_step (hR : 4 ≤ maxR) {s : DSys} {H : List Nat} (hd : DInv maxR s) (h : NInv s H) (a : DAct) :
    NInv (dStep maxR s a) (H ++ messageSent false s a) := by
  have hd' := dinv_step hR hd a
  obtain ⟨fI, fN⟩ := facts hd.inv
  cases a with
  | act a =>
    rw [show messageSent false s (.act a) = [] from rfl, List.append_nil]
    cases a with
    | bg who fr =>
      cases who with
      | true =>
        rw [dStep]
        split
        · exact ninv_same h rfl rfl
        · exact h
      | false =>
        have hok := (inv_ok hd'.inv).2
        rw [dStep] at hok ⊢
        split at hok
        case isFalse hen => rw [if_neg hen]; exact h
        case isTrue hen =>
          rw [if_pos hen]
          have ht := bgD_t maxR false s.n s.toN s.toI fr
          have hl := bgD_latest maxR false s.n s.toN s.toI fr
          refine ⟨fun w hw => Nat.le_trans (h.le w hw) hl, ?_, h.sorted⟩
          intro hm
          have heq : (bgD maxR false s.n s.toN s.toI fr).1.latest = s.n.latest :=
            Nat.le_antisymm (h.le _ hm) hl
          dsimp only at hm ⊢
          rw [heq] at hm ⊢
          obtain ⟨o1, o2, o3⟩ := h.once hm
          rw [ht]
          rcases bgD_cases (x := s.n) (dx := s.toN) (init := false) (fr := fr) (dy := s.toI) fN hok with
            ⟨e1, e2⟩ | ⟨w, m, rest, hb, hi, e1, e2, h3⟩ | ⟨ms, hb, e1, h3⟩
          · rw [e1, e2]; exact ⟨o1, o2, o3⟩
          · rw [e1]
            refine ⟨o1, ?_, o3⟩
            rcases h3 with h3 | h3 | h3
            · rw [h3.2.1]; exact o2
            · have := (toN_stage hd.inv).fin m (inq_content hi) h3
              have this' : s.n.declared = s.n.latest := this
              omega
            · have hmem := inq_content hi
              rw [h3] at hmem
              have := (toN_stage hd.inv).lead _ hmem
              have this' : (bgD maxR false s.n s.toN s.toI fr).1.latest = s.n.latest + 1 := this
              omega
          · rw [e1, List.countP_append, count_zero h3.msgs, o3, h3.dec]
            exact ⟨o1, o2, rfl⟩
    | trig who fr =>
      cases who with
      | true => exact ninv_same h rfl rfl
      | false =>
        obtain ⟨t1, t2, t3, _⟩ := trig_keeps s.n fr
        refine ⟨?_, ?_, h.sorted⟩
        · show ∀ w ∈ H, w ≤ (tMacro s.n fr).1.latest
          rw [t1]; exact h.le
        · show (tMacro s.n fr).1.latest ∈ H → (tMacro s.n fr).1.t = .idle ∧
            (tMacro s.n fr).1.declared = (tMacro s.n fr).1.latest + 1 ∧
            (s.toI.out ++ (tMacro s.n fr).2).countP isProposal = 0
          rw [t1]
          intro hm
          obtain ⟨o1, o2, o3⟩ := h.once hm
          rw [tMacro_refused o1 (Or.inl (by omega)), List.append_nil]
          exact ⟨o1, o2, o3⟩
  | transmit who =>
    cases who with
    | true =>
      rw [show messageSent false s (.transmit true) = [] from rfl, List.append_nil]
      exact ninv_same h rfl rfl
    | false =>
      obtain ⟨k, hk, _⟩ := fN.cur
      have hcur : current s.n = some (s.n.latest, k) := by
        unfold current
        have hk' : s.n.keys s.n.latest = some k := hk
        rw [hk']
      cases ho : s.toI.out with
      | nil =>
        have e : messageSent false s (.transmit false) = [] := by simp [messageSent, ho]
        have e' : dStep maxR s (.transmit false) = s := by simp [dStep, transmit, ho]
        rw [e, e', List.append_nil]
        exact h
      | cons m rest =>
        have e' : dStep maxR s (.transmit false) = { s with toI := ⟨rest, s.toI.wire ++ [⟨s.n.latest, s.n.latest, k, false, some m⟩], s.toI.inq⟩ } := by
          simp [dStep, transmit, ho, hcur]
        rw [e']
        by_cases hp : isProposal m = true
        · have e : messageSent false s (.transmit false) = [s.n.latest] := by
            cases m <;> simp [isProposal] at hp
            simp [messageSent, ho, hcur]
          obtain ⟨i1, i2, i3⟩ := (toI_stage hd.inv).prop m (out_content (by rw [ho]; exact List.mem_cons_self)) hp
          have hnot : s.n.latest ∉ H := by
            intro hm
            have := (h.once hm).2.2
            rw [ho, List.countP_cons, hp] at this
            simp at this
          have hc := Nat.le_trans (out_count s.toI isProposal) i3
          rw [ho, List.countP_cons, hp] at hc
          rw [e]
          refine ⟨?_, ?_, ?_⟩
          · intro w hw
            rcases List.mem_append.1 hw with hw | hw
            · exact h.le w hw
            · rw [List.mem_singleton.1 hw]; exact Nat.le_refl _
          · intro _
            refine ⟨i1, i2, ?_⟩
            show rest.countP isProposal = 0
            simp at hc
            rw [List.countP_eq_zero]
            intro a ha
            simp [hc a ha]
          · rw [List.pairwise_append]
            refine ⟨h.sorted, List.pairwise_singleton _ _, ?_⟩
            intro a ha b hb
            rw [List.mem_singleton.1 hb]
            have := h.le a ha
            rcases Nat.lt_or_ge a s.n.latest with hl | hl
            · exact hl
            · exact absurd (Nat.le_antisymm this hl ▸ ha) hnot
        · have e : messageSent false s (.transmit false) = [] := by
            cases m <;> simp [isProposal] at hp <;> simp [messageSent, ho]
          rw [e, List.append_nil]
          refine ⟨h.le, fun hm => ?_, h.sorted⟩
          obtain ⟨o1, o2, o3⟩ := h.once hm
          refine ⟨o1, o2, ?_⟩
          rw [ho, List.countP_cons] at o3
          show rest.countP isProposal = 0
          omega
  | data who =>
    rw [show messageSent false s (.data who) = [] from rfl, List.append_nil]
    cases who with
    | true => exact ninv_same h rfl rfl
    | false => exact ninv_same h rfl (data_out _ _)
  | deliver who answer =>
    rw [show messageSent false s (.deliver who answer) = [] from rfl, List.append_nil]
    cases who with
    | true => exact ninv_same h rfl (deliver_out _ _ _ _).1
    | false => exact ninv_same h rfl (deliver_out _ _ _ _).2

/-! ### The initiator -/

/-- The trigger task has not finished. -/
def pend (x : EP) : Nat := if x.t = .idle then 0 else 1

/-- What the initiator has queued since its answer, and may still send in this round, is at most one proposal. -/
def Tail (out : List Msg) (p : Nat) : Prop :=
  ∃ x y, out = x ++ y ∧ (x = [] ∨ ∃ z a b c, x = z ++ [.bobToAlice a b c]) ∧ y.countP isProposal + p ≤ 1

structure IInv (s : DSys) (H : List Nat) : Prop where
  le : ∀ h ∈ H, h ≤ s.i.latest
  two : ∀ w, H.count w ≤ 2
  bud : H.count s.i.latest + s.toN.out.countP isProposal + budget s.i ≤ 2
  ans : s.i.b = .recv → s.i.role = .loser → Tail s.toN.out (pend s.i)

theorem iinv_same {s s' : DSys} {H : List Nat} (h : IInv s H) (h1 : s'.i = s.i) (h2 : s'.toN.out = s.toN.out) :
    IInv s' H := ⟨by rw [h1]; exact h.le, h.two, by rw [h1, h2]; exact h.bud, by rw [h1, h2]; exact h.ans⟩

theorem budget_pend (x : EP) : budget x ≤ 1 + pend x := by
  unfold budget pend
  cases h : x.t <;> simp <;> split <;> omega

theorem budget_eq {x x' : EP} (h1 : x'.t = x.t) (h2 : x'.declared = x.declared) (h3 : x'.latest = x.latest) :
    budget x' = budget x := by
  unfold budget
  rw [h1, h2, h3]

theorem Tail.tail {m : Msg} {out : List Msg} {p : Nat} (h : Tail (m :: out) p) : Tail out p := by
  obtain ⟨x, y, e, hx, hy⟩ := h
  rcases hx with rfl | ⟨z, a, b, c, rfl⟩
  · rw [List.nil_append] at e
    subst e
    rw [List.countP_cons] at hy
    exact ⟨[], out, rfl, Or.inl rfl, by omega⟩
  · cases z with
    | nil =>
      simp only [List.nil_append, List.cons_append, List.cons.injEq] at e
      exact ⟨[], y, e.2, Or.inl rfl, hy⟩
    | cons q z =>
      simp only [List.cons_append, List.cons.injEq] at e
      exact ⟨z ++ [.bobToAlice a b c], y, e.2, Or.inr ⟨z, a, b, c, rfl⟩, hy⟩

theorem trig_role (x : EP) (fr : Nat) : (tMacro x fr).1.role = x.role := by
  have loc : ∀ y : EP, y.role = x.role → (tLocal y fr).role = x.role := by
    intro y hy
    unfold tLocal
    repeat' split
    all_goals exact hy
  unfold tMacro
  apply tSettle_keep fr loc
  unfold tStep
  split
  · rfl
  · exact loc x rfl

theorem trig_pend {x : EP} {fr : Nat} (hr : x.role ≠ .idle) :
    (tMacro x fr).2.countP isProposal + pend (tMacro x fr).1 ≤ pend x := by
  by_cases ht : x.t = .idle
  · rw [tMacro_refused ht (Or.inr (Or.inl hr))]
    simp
  · have h1 : pend x = 1 := by simp [pend, ht]
    have h2 : pend (tMacro x fr).1 ≤ 1 := by unfold pend; split <;> omega
    rw [h1]
    by_cases hs : ∃ l, x.t = .send l
    · obtain ⟨l, hs⟩ := hs
      have e : tMacro x fr = ({ x with t := .idle }, [.aliceToBob l.c l.sn l.tm]) := by
        simp [tMacro, tStep, hs, tSettle, tFuel, tPoint]
      rw [e]
      simp [pend, isProposal]
    · have e : (tMacro x fr).2 = [] := by
        unfold tMacro tStep
        split
        · rename_i l hl; exact absurd ⟨l, hl⟩ hs
        · rfl
      rw [e]
      simpa using h2

/-- The trigger task of the initiator uses up its budget. -/
theorem trig_budget {s : Sys} (h : Inv maxR s) (fr : Nat) :
    (tMacro s.i fr).2.length + budget (tMacro s.i fr).1 ≤ budget s.i := by
  have hk : (s.i.keys s.i.latest).isSome = true := by
    obtain ⟨k, hk, _⟩ := (facts h).1.cur
    rw [hk]; rfl
  have noise : ∀ q tr, Noise q s.i tr → (s.i.role = .idle → ¬ Late s.i) →
      (tMacro s.i fr).2.length + budget (tMacro s.i fr).1 ≤ budget s.i := by
    intro q tr hn hl
    have := (noise_trig (fr := fr) hn hk hl).2.2.1
    rw [List.length_append] at this
    omega
  have refused : s.i.t = .idle → s.i.declared = s.i.latest + 1 →
      (tMacro s.i fr).2.length + budget (tMacro s.i fr).1 ≤ budget s.i := by
    intro h1 h2
    rw [tMacro_refused h1 (Or.inl (by omega))]
    simp
  have rest : Rest s.i → s.i.role = .idle → ¬ Late s.i := by
    rintro (⟨h, _⟩ | ⟨_, h⟩) hr
    · simp [Late, h]
    · exact absurd hr h
  have recv : s.i.b = .recv → s.i.role = .idle → ¬ Late s.i := by
    intro h _
    simp [Late, h]
  cases h.stage with
  | quiet h => exact noise _ _ h.nz (rest h.hI)
  | bob h =>
    obtain ⟨c, _, ha⟩ := h.an
    refine noise _ _ h.nz fun _ => ?_
    rcases ha with ⟨hb | hb, _⟩ | ⟨b, hb, _⟩ | ⟨b, hb, _⟩ <;> simp [Late, hb]
  | ans h =>
    obtain ⟨c, b, x, y, _, ha, _, hn, _⟩ := h.an
    exact noise _ _ hn (recv ha.hb)
  | lead h =>
    obtain ⟨c, b, ha, _⟩ := h.an
    exact noise _ _ h.nz (recv ha.hb)
  | fwd h =>
    obtain ⟨c, b, ha⟩ := h.an
    exact noise _ _ h.nz (recv ha.hb)
  | ack h => exact noise _ _ h.nz fun hr => by rw [h.rI] at hr; cases hr
  | cf h =>
    obtain ⟨x, y, _, _, hn, _⟩ := h.an
    exact noise _ _ hn (rest h.hI)
  | ibob h => exact refused h.base.ht h.base.hd
  | ians h => exact refused h.base.ht h.base.hd
  | ilead h => exact refused h.base.ht h.base.hd
  | ifwd h => exact refused h.base.ht h.base.hd
  | iack h => exact refused h.base.ht h.base.hd
  | icf h => exact refused h.ht h.hd

/-- Only a leader sends `Truncate` or `LoserCanFinish`. -/
theorem leader_sends {s : Sys} (h : Inv maxR s) (hb : (∃ v, s.i.b = .aSendTrunc v) ∨ s.i.b = .aSendLoser) :
    s.i.role ≠ .loser := by
  have no : ∀ p, s.i.b = p → ((∃ v, p = .aSendTrunc v) ∨ p = .aSendLoser) := by
    rintro p rfl; exact hb
  have rest : ¬ Rest s.i := by
    rintro (⟨h, _⟩ | ⟨h, _⟩) <;> simpa using no _ h
  have recv : s.i.b ≠ .recv := fun h => by simpa using no _ h
  cases h.stage with
  | quiet h => exact absurd h.hI rest
  | bob h =>
    obtain ⟨c, _, ha⟩ := h.an
    rcases ha with ⟨hb | hb, _⟩ | ⟨b, hb, _⟩ | ⟨b, hb, _⟩ <;> exact absurd (no _ hb) (by simp)
  | ans h =>
    obtain ⟨c, b, x, y, _, ha, _⟩ := h.an
    exact absurd ha.hb recv
  | lead h =>
    obtain ⟨c, b, ha, _⟩ := h.an
    exact absurd ha.hb recv
  | fwd h =>
    obtain ⟨c, b, ha⟩ := h.an
    exact absurd ha.hb recv
  | ack h => exact absurd (no _ h.bI) (by simp)
  | cf h => exact absurd h.hI rest
  | ibob h => exact absurd h.bI recv
  | ians h => exact absurd h.bI recv
  | ilead h => rw [h.tk.hr]; simp
  | ifwd h => exact absurd h.bI recv
  | iack h => exact absurd h.bI recv
  | icf h => exact absurd h.bI recv

/-- The end of a round the initiator has lost. -/
theorem fwd_step {s : Sys} (hw : Win s.i s.n) (h : Fwd maxR s) {m : Msg} (hm : m ∈ s.toI) {rest : List Msg} {fr : Nat} :
    (bMacro maxR true s.i (m :: rest) fr).1.latest = s.i.latest + 1 ∧
      (bMacro maxR true s.i (m :: rest) fr).1.b = .lSend := by
  obtain ⟨c, b, ha⟩ := h.an
  have hver := h.ver
  have hk : (s.i.keys (s.i.latest + 1)).isSome = true := by rw [hver, ha.hk]; rfl
  have hf := h.fw
  generalize hl : s.toI = l at hf hm
  cases hf with
  | trunc o h1 h2 h3 =>
    rw [List.mem_singleton] at hm
    subst hm
    have hmost := ha.hm
    have hlo := hw.loI
    rw [bMacro_truncate ha.hb ha.hr (by omega) h2 (by omega) hk]
    exact ⟨rfl, rfl⟩
  | room h1 =>
    rw [List.mem_singleton] at hm
    subst hm
    rw [bMacro_loserCanFinish ha.hb ha.hr hk]
    exact ⟨rfl, rfl⟩

/-- The end of a round the initiator has won. -/
theorem icf_step {s : Sys} (hw : Win s.i s.n) (h : ICf s) {v : Nat} (hm : .leaderCanFinish v ∈ s.toI) {rest : List Msg}
    {fr : Nat} :
    (bMacro maxR true s.i (.leaderCanFinish v :: rest) fr).1.latest = s.i.latest + 1 ∧
      (bMacro maxR true s.i (.leaderCanFinish v :: rest) fr).1.b = .retain := by
  obtain ⟨l, e, hn⟩ := h.an
  have hv : v = s.i.latest + 1 := by
    rw [e] at hm
    rcases List.mem_cons.1 hm with hm | hm
    · injection hm with hm
      rw [hm, h.ver]
    · have := (np_props hn).2.2 _ hm
      simp [isProposal] at this
  have hmI := h.mI
  have hlo := hw.loI
  rw [bMacro_leaderCanFinish h.bI (by rw [h.tk.hr]; simp) ((hw.hI _).2 ⟨by omega, by omega⟩) hv]
  exact ⟨rfl, rfl⟩

theorem iinv_step (hR : 4 ≤ maxR) {s : DSys} {H : List Nat} (hd : DInv maxR s) (h : IInv s H) (a : DAct) :
    IInv (dStep maxR s a) (H ++ messageSent true s a) := by
  have hd' := dinv_step hR hd a
  obtain ⟨fI, fN⟩ := facts hd.inv
  cases a with
  | act a =>
    rw [show messageSent true s (.act a) = [] from rfl, List.append_nil]
    cases a with
    | bg who fr =>
      cases who with
      | false =>
        rw [dStep]
        split
        · exact iinv_same h rfl rfl
        · exact h
      | true =>
        have hok := (inv_ok hd'.inv).1
        rw [dStep] at hok ⊢
        split at hok
        case isFalse hen => rw [if_neg hen]; exact h
        case isTrue hen =>
          rw [if_pos hen]
          have ht := bgD_t maxR true s.i s.toI s.toN fr
          have hl := bgD_latest maxR true s.i s.toI s.toN fr
          have hle : ∀ w ∈ H, w ≤ (bgD maxR true s.i s.toI s.toN fr).1.latest :=
            fun w hw => Nat.le_trans (h.le w hw) hl
          have hpend : pend (bgD maxR true s.i s.toI s.toN fr).1 = pend s.i := by unfold pend; rw [ht]
          have bump : (bgD maxR true s.i s.toI s.toN fr).1.latest = s.i.latest + 1 →
              H.count (bgD maxR true s.i s.toI s.toN fr).1.latest = 0 := by
            intro e
            rw [List.count_eq_zero]
            intro hm
            have := h.le _ hm
            omega
          rcases bgD_cases (x := s.i) (dx := s.toI) (init := true) (fr := fr) (dy := s.toN) fI hok with
            ⟨e1, e2⟩ | ⟨w, m, rest, hb, hi, e1, e2, h3⟩ | ⟨ms, hb, e1, h3⟩
          · exact iinv_same h e1 (by dsimp only; rw [e2])
          · have done : (bgD maxR true s.i s.toI s.toN fr).1.latest = s.i.latest + 1 →
                (bgD maxR true s.i s.toI s.toN fr).1.b ≠ .recv →
                s.toN.out.countP isProposal + pend s.i ≤ 1 →
                IInv { s with i := (bgD maxR true s.i s.toI s.toN fr).1, toI := (bgD maxR true s.i s.toI s.toN fr).2.1,
                              toN := (bgD maxR true s.i s.toI s.toN fr).2.2 } H := by
              intro b1 b2 b3
              refine ⟨hle, h.two, ?_, fun hb' => absurd hb' b2⟩
              dsimp only
              rw [bump b1, e1]
              have := budget_pend (bgD maxR true s.i s.toI s.toN fr).1
              omega
            rcases h3 with h3 | h3 | h3
            · refine ⟨hle, h.two, ?_, ?_⟩
              · dsimp only
                rw [e1, h3.1, budget_eq ht h3.2.1 h3.1]
                exact h.bud
              · intro hb' hr'
                dsimp only at hb' hr' ⊢
                rw [e1, hpend]
                refine h.ans hb ?_
                rcases h3.2.2 with h4 | h4
                · rw [← h4]; exact hr'
                · rw [h4] at hr'; cases hr'
            · have hfw := (toI_stage hd.inv).fin m (inq_content hi) h3
              obtain ⟨b1, b2⟩ := fwd_step (maxR := maxR) hd.inv.win hfw (m := m) (inq_content hi) (rest := rest.map Prod.snd) (fr := fr)
              have b1' : (bgD maxR true s.i s.toI s.toN fr).1.latest = s.i.latest + 1 := by rw [e2]; exact b1
              have b2' : (bgD maxR true s.i s.toI s.toN fr).1.b = .lSend := by rw [e2]; exact b2
              refine done b1' (by rw [b2']; simp) ?_
              obtain ⟨c, b, ha⟩ := hfw.an
              obtain ⟨x, y, e, hx, hy⟩ := h.ans ha.hb ha.hr
              rcases hx with rfl | ⟨z, a, b, c, rfl⟩
              · rw [e]; exact hy
              · have := noise_proposals hfw.nz (.bobToAlice a b c) (out_content (by rw [e]; simp))
                simp [isProposal] at this
            · have hmem := inq_content hi
              rw [h3] at hmem
              have hic := (toI_stage hd.inv).lead _ hmem
              obtain ⟨b1, b2⟩ := icf_step (maxR := maxR) hd.inv.win hic hmem (rest := rest.map Prod.snd) (fr := fr)
              have e3 := e2
              rw [h3] at e3
              have b1' : (bgD maxR true s.i s.toI s.toN fr).1.latest = s.i.latest + 1 := by
                conv => lhs; rw [e3]
                exact b1
              have b2' : (bgD maxR true s.i s.toI s.toN fr).1.b = .retain := by
                conv => lhs; rw [e3]
                exact b2
              refine done b1' (by rw [b2']; simp) ?_
              have h5 : content s.toN = [] := hic.toN
              have h6 : s.toN.out = [] := by
                unfold content at h5
                exact (List.append_eq_nil_iff.1 h5).2
              have h7 : s.i.t = .idle := hic.ht
              rw [h6]
              simp [pend, h7]
          · refine ⟨hle, h.two, ?_, ?_⟩
            · dsimp only
              rw [e1, List.countP_append, count_zero h3.msgs, h3.lat, budget_eq ht h3.dec h3.lat]
              exact h.bud
            · intro hb' hr'
              dsimp only at hb' hr' ⊢
              rw [e1, hpend]
              rcases h3.loser hb' hr' with ⟨a, b, _, rfl⟩ | ⟨h4, h5⟩
              · refine ⟨s.toN.out ++ [.bobToAlice a b s.i.rmeta], [], by simp, Or.inr ⟨_, _, _, _, rfl⟩, ?_⟩
                unfold pend
                split <;> simp
              · exact absurd h5 (leader_sends hd.inv h4)
    | trig who fr =>
      cases who with
      | false => exact iinv_same h rfl rfl
      | true =>
        obtain ⟨t1, t2, t3, _⟩ := trig_keeps s.i fr
        have hbud := trig_budget hd.inv fr
        have hbud' : (tMacro s.i fr).2.length + budget (tMacro s.i fr).1 ≤ budget s.i := hbud
        have hcp : (tMacro s.i fr).2.countP isProposal ≤ (tMacro s.i fr).2.length := List.countP_le_length
        refine ⟨?_, h.two, ?_, ?_⟩
        · show ∀ w ∈ H, w ≤ (tMacro s.i fr).1.latest
          rw [t1]; exact h.le
        · show H.count (tMacro s.i fr).1.latest + (s.toN.out ++ (tMacro s.i fr).2).countP isProposal +
            budget (tMacro s.i fr).1 ≤ 2
          rw [t1, List.countP_append]
          have := h.bud
          omega
        · show (tMacro s.i fr).1.b = .recv → (tMacro s.i fr).1.role = .loser →
            Tail (s.toN.out ++ (tMacro s.i fr).2) (pend (tMacro s.i fr).1)
          rw [t3, trig_role]
          intro hb hr
          obtain ⟨x, y, e, hx, hy⟩ := h.ans hb hr
          have := trig_pend (x := s.i) (fr := fr) (by rw [hr]; simp)
          refine ⟨x, y ++ (tMacro s.i fr).2, by rw [e, List.append_assoc], hx, ?_⟩
          rw [List.countP_append]
          omega
  | transmit who =>
    cases who with
    | false =>
      rw [show messageSent true s (.transmit false) = [] from rfl, List.append_nil]
      exact iinv_same h rfl rfl
    | true =>
      obtain ⟨k, hk, _⟩ := fI.cur
      have hcur : current s.i = some (s.i.latest, k) := by
        unfold current
        have hk' : s.i.keys s.i.latest = some k := hk
        rw [hk']
      cases ho : s.toN.out with
      | nil =>
        have e : messageSent true s (.transmit true) = [] := by simp [messageSent, ho]
        have e' : dStep maxR s (.transmit true) = s := by simp [dStep, transmit, ho]
        rw [e, e', List.append_nil]
        exact h
      | cons m rest =>
        have e' : dStep maxR s (.transmit true) =
            { s with toN := ⟨rest, s.toN.wire ++ [⟨s.i.latest, s.i.latest, k, false, some m⟩], s.toN.inq⟩ } := by
          simp [dStep, transmit, ho, hcur]
        rw [e']
        have hbud := h.bud
        rw [ho, List.countP_cons] at hbud
        have hans : s.i.b = .recv → s.i.role = .loser → Tail rest (pend s.i) := fun hb hr =>
          Tail.tail (m := m) (by rw [← ho]; exact h.ans hb hr)
        by_cases hp : isProposal m = true
        · have e : messageSent true s (.transmit true) = [s.i.latest] := by
            cases m <;> simp [isProposal] at hp
            simp [messageSent, ho, hcur]
          rw [hp, if_pos rfl] at hbud
          rw [e]
          refine ⟨?_, ?_, ?_, hans⟩
          · intro w hw
            rcases List.mem_append.1 hw with hw | hw
            · exact h.le w hw
            · rw [List.mem_singleton.1 hw]; exact Nat.le_refl _
          · intro w
            rw [List.count_append]
            by_cases hw : w = s.i.latest
            · subst hw
              rw [List.count_singleton_self]
              omega
            · have := h.two w
              rw [List.count_singleton, beq_false_of_ne (Ne.symm hw)]
              simpa using this
          · dsimp only
            rw [List.count_append, List.count_singleton_self]
            omega
        · have e : messageSent true s (.transmit true) = [] := by
            cases m <;> simp [isProposal] at hp <;> simp [messageSent, ho]
          rw [e, List.append_nil]
          refine ⟨h.le, h.two, ?_, hans⟩
          dsimp only
          omega
  | data who =>
    rw [show messageSent true s (.data who) = [] from rfl, List.append_nil]
    cases who with
    | false => exact iinv_same h rfl rfl
    | true => exact iinv_same h rfl (data_out _ _)
  | deliver who answer =>
    rw [show messageSent true s (.deliver who answer) = [] from rfl, List.append_nil]
    cases who with
    | false => exact iinv_same h rfl (deliver_out _ _ _ _).1
    | true => exact iinv_same h rfl (deliver_out _ _ _ _).2

theorem ninv_run (hR : 4 ≤ maxR) : ∀ (acts : List DAct) {s : DSys} {H : List Nat}, DInv maxR s → NInv s H →
    NInv (dRun maxR s acts) (H ++ messagesSent maxR false s acts) := by
  intro acts
  induction acts with
  | nil => intro s H _ h; simpa [messagesSent, dRun] using h
  | cons a as ih =>
    intro s H hd h
    rw [messagesSent, ← List.append_assoc]
    exact ih (dinv_step hR hd a) (ninv_step hR hd h a)

theorem iinv_run (hR : 4 ≤ maxR) : ∀ (acts : List DAct) {s : DSys} {H : List Nat}, DInv maxR s → IInv s H →
    IInv (dRun maxR s acts) (H ++ messagesSent maxR true s acts) := by
  intro acts
  induction acts with
  | nil => intro s H _ h; simpa [messagesSent, dRun] using h
  | cons a as ih =>
    intro s H hd h
    rw [messagesSent, ← List.append_assoc]
    exact ih (dinv_step hR hd a) (iinv_step hR hd h a)

/-! ### C86 -/

/-- **C86 (non-initiator).** Under cooperative scheduling the non-initiator encrypts each message of perfect-secrecy mode
with a newer ratchet than the one before. Missing: a preemptive scheduler. -/
theorem C86_non_initiator_partial (hR : 4 ≤ maxR) (v : Nat) (k : Key) (acts : List DAct) :
    (messagesSent maxR false (dStart v k) acts).Pairwise (· < ·) := by
  have h := ninv_run hR acts (dinv_start maxR v k) (H := []) ⟨by simp, by simp, List.Pairwise.nil⟩
  exact h.sorted

/-- **C86 (initiator).** Under cooperative scheduling the initiator encrypts at most two messages of perfect-secrecy mode
with the same ratchet. -/
theorem C86_initiator_partial (hR : 4 ≤ maxR) (v : Nat) (k : Key) (acts : List DAct) (w : Nat) :
    (messagesSent maxR true (dStart v k) acts).count w ≤ 2 := by
  have h := iinv_run hR acts (dinv_start maxR v k) (H := [])
    ⟨by simp, by simp, by simp [dStart, freshEP, budget], by simp [dStart, freshEP]⟩
  exact h.two w

/-- A queued message is encrypted, sent and delivered at once. -/
def sendNow (who : Bool) : List DAct := [.transmit who, .deliver (!who) false]

/-- The initiator has checked the version and is about to send its proposal when it answers the proposal of the other
endpoint; that round completes, and only then the proposal leaves.  The next message starts a re-key as usual. -/
def lateProposal : List DAct :=
  [.act (.trig false 1), .act (.trig false 1), .act (.trig false 1), .act (.trig true 2), .act (.trig false 1)] ++ sendNow false ++
  [.act (.bg true 3), .act (.bg true 3), .act (.bg true 3), .act (.bg true 3), .act (.bg true 3)] ++ sendNow true ++
  [.act (.bg false 4), .act (.bg false 4), .act (.bg false 4), .act (.trig true 2), .act (.trig true 2), .act (.bg false 4)] ++
  sendNow false ++ [.act (.bg true 3), .act (.bg true 3)] ++ sendNow true ++ [.act (.bg true 3), .act (.trig true 2)] ++ sendNow true ++
  [.act (.trig true 5), .act (.trig true 5), .act (.trig true 5), .act (.trig true 5)] ++ sendNow true

/-- What the theorems leave open happens: the initiator encrypts two messages with the same ratchet, although no message
waits anywhere; the other endpoint opens both packets and is in step afterwards. -/
theorem C86_counterexample :
    messagesSent 6 true (dStart 0 ⟨0, 0⟩) lateProposal = [1, 1] ∧
      (∀ n, n ≤ lateProposal.length → let s := dRun 6 (dStart 0 ⟨0, 0⟩) (lateProposal.take n)
        s.toN.out.length + s.toN.wire.length ≤ 1 ∧ s.toI.out.length + s.toI.wire.length ≤ 1) ∧
      (let s := dRun 6 (dStart 0 ⟨0, 0⟩) (lateProposal ++ List.replicate 4 (.act (.bg false 6)))
       s.i.latest = 1 ∧ s.n.latest = 1 ∧ s.n.keys 1 = s.i.keys 1) := by decide +kernel

/-- The theorem about the non-initiator speaks about messages: here three in a row. -/
example : messagesSent 6 false (dStart 0 ⟨0, 0⟩) (List.flatten (List.replicate 3 (
    List.replicate 4 (.act (.trig false 1)) ++ sendNow false ++ List.replicate 5 (.act (.bg true 2)) ++ sendNow true ++
    List.replicate 4 (.act (.bg false 3)) ++ sendNow false ++ List.replicate 2 (.act (.bg true 4)) ++ sendNow true ++
    .act (.bg true 5) :: List.replicate 2 (.act (.bg false 6))))) = [0, 1, 2] := by decide +kernel

end Verif.Rekey

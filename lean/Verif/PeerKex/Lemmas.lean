/-
What one step does to a slot, and invariants of runs with a hostile relay.
-/
import Verif.PeerKex.Spec

namespace Verif.PeerKex

/-! ### Slots -/

@[simp] theorem tell_psk (s : Slot) (e : Ev) : (tell s e).psk = s.psk := rfl
@[simp] theorem tell_kem (s : Slot) (e : Ev) : (tell s e).kem = s.kem := rfl
@[simp] theorem tell_made (s : Slot) (e : Ev) : (tell s e).made = s.made := rfl
@[simp] theorem tell_who (s : Slot) (e : Ev) : (tell s e).who = s.who := rfl
@[simp] theorem tell_panicked (s : Slot) (e : Ev) : (tell s e).panicked = s.panicked := rfl
@[simp] theorem tell_vconn (s : Slot) (e : Ev) : (tell s e).vconn = s.vconn := rfl
@[simp] theorem cancel_psk (s : Slot) (p : Option Nat) : (cancel s p).psk = s.psk := rfl
@[simp] theorem cancel_kem (s : Slot) (p : Option Nat) : (cancel s p).kem = s.kem := rfl
@[simp] theorem cancel_made (s : Slot) (p : Option Nat) : (cancel s p).made = s.made := rfl
@[simp] theorem cancel_who (s : Slot) (p : Option Nat) : (cancel s p).who = s.who := rfl
@[simp] theorem cancel_panicked (s : Slot) (p : Option Nat) : (cancel s p).panicked = s.panicked := rfl
@[simp] theorem cancel_vconn (s : Slot) (p : Option Nat) : (cancel s p).vconn = s.vconn := rfl
@[simp] theorem setKem_psk (s : Slot) (k : Kem) : (setKem s k).psk = s.psk := rfl
@[simp] theorem setKem_kem (s : Slot) (k : Kem) : (setKem s k).kem = some k := rfl
@[simp] theorem setKem_made (s : Slot) (k : Kem) : (setKem s k).made = s.made := rfl
@[simp] theorem setKem_who (s : Slot) (k : Kem) : (setKem s k).who = s.who := rfl
@[simp] theorem setKem_panicked (s : Slot) (k : Kem) : (setKem s k).panicked = s.panicked := rfl
@[simp] theorem setKem_vconn (s : Slot) (k : Kem) : (setKem s k).vconn = s.vconn := rfl

/-- What can happen to the parts of a slot that matter for keys when a signal is processed. -/
inductive Did (s : Slot) (n : Nat) : Msg → Slot → List Msg → Prop where
  /-- Nothing but the constructor may go away, and only errors and `Accept` are sent. -/
  | other (m : Msg) (s' : Slot) (out : List Msg) (hp : s'.psk = s.psk) (hw : s'.who = s.who) (hm : s'.made = s.made)
      (hk : ∀ k', s'.kem = some k' → k'.con.isSome → s.kem = some k')
      (hpa : s'.panicked = true → s.panicked = true ∨ s.psk = none)
      (ho : ∀ o ∈ out, o = .accept ∨ o = .error) : Did s n m s' out
  | accept (s' : Slot) (hp : s'.psk = s.psk) (hw : s'.who = s.who) (hm : s'.made = s.made)
      (hk : s'.kem = some ⟨some (.alice ⟨s.who, n⟩), n, s.psk.getD 0, none⟩) (hpa : s'.panicked = s.panicked) :
      Did s n .accept s' [.stage0 ⟨s.who, n⟩ n]
  | stage0 (x : Nonce) (id : Nat) (s' : Slot) (hp : s'.psk = s.psk) (hw : s'.who = s.who) (hm : s'.made = s.made)
      (hk : s'.kem = some ⟨some (.bob x ⟨s.who, n⟩), id, s.psk.getD 0, none⟩) (hpa : s'.panicked = s.panicked) :
      Did s n (.stage0 x id) s' [.stage1 x ⟨s.who, n⟩ (s.psk.getD 0) id]
  | stage1 (x y : Nonce) (psk id : Nat) (k : Kem) (s' : Slot) (hp : s'.psk = s.psk) (hw : s'.who = s.who)
      (hk0 : s.kem = some k) (hc : k.con = some (.alice x)) (hkp : k.psk = psk) (hs : s.psk.isSome)
      (hm : s'.made = (⟨x, y, psk⟩, k.id) :: s.made)
      (hk : ∀ k', s'.kem = some k' → k'.con = none) (hpa : s'.panicked = s.panicked) :
      Did s n (.stage1 x y psk id) s' [.stage2]
  | stage2 (x y : Nonce) (k : Kem) (s' : Slot) (hp : s'.psk = s.psk) (hw : s'.who = s.who)
      (hk0 : s.kem = some k) (hc : k.con = some (.bob x y)) (hs : s.psk.isSome)
      (hm : s'.made = (⟨x, y, k.psk⟩, k.id) :: s.made)
      (hk : ∀ k', s'.kem = some k' → k'.con = none) (hpa : s'.panicked = s.panicked) :
      Did s n .stage2 s' []

theorem did_handle (s : Slot) (n : Nat) (m : Msg) : Did s n m (handle s n m).1 (handle s n m).2 := by
  unfold handle
  by_cases hp : s.panicked = true
  · simp only [hp, if_true]
    exact .other _ _ _ rfl rfl rfl (fun _ h _ => h) (fun _ => .inl hp) (by simp)
  simp only [hp]
  cases m with
  | request =>
    show Did s n _ (onRequest s).1 (onRequest s).2
    unfold onRequest
    split
    · split
      · exact .other _ _ _ (by simp) rfl rfl (by simp) (by simp [hp]) (by simp)
      · exact .other _ _ _ rfl rfl rfl (fun _ h _ => h) (fun h => .inl h) (by simp)
    · exact .other _ _ _ rfl rfl rfl (fun _ h _ => h) (fun h => .inl h) (by simp)
  | accept => exact .accept _ rfl rfl rfl rfl rfl
  | stage0 x id =>
    show Did s n _ (onStage0 s n x id).1 (onStage0 s n x id).2
    unfold onStage0
    split
    · exact .other _ _ _ rfl rfl rfl (fun _ h _ => h) (fun h => .inl h) (by simp)
    · exact .stage0 _ _ _ rfl rfl rfl rfl rfl
  | stage1 x y psk id =>
    show Did s n _ (onStage1 s n x y psk).1 (onStage1 s n x y psk).2
    unfold onStage1
    cases hk : s.kem with
    | none => exact .other _ _ _ rfl rfl rfl (fun _ h _ => h) (fun h => .inl h) (by simp)
    | some k =>
      simp only
      cases hc : k.con with
      | none => exact .other _ _ _ (by simp) rfl rfl (by simp) (by simp [hp]) (by simp)
      | some c =>
        cases c with
        | bob _ _ => exact .other _ _ _ rfl rfl rfl (by simp [fail]) (by simp [fail, hp]) (by simp [fail])
        | alice x0 =>
          simp only
          split
          · rename_i h
            obtain ⟨rfl, rfl⟩ := h
            cases hs : s.psk with
            | none =>
              simp only [create, cancel_psk, hs]
              exact .other _ _ _ (by simp [hs]) rfl rfl (by simp) (fun _ => .inr hs) (by simp)
            | some q =>
              simp only [create, cancel_psk, hs]
              split
              · rename_i h; split at h <;> cases h
              · exact .other _ _ _ hs.symm rfl rfl (by simp) (by simp [hp]) (by simp)
              · rename_i h
                split at h
                · cases h
                · cases h
                  exact .stage1 _ _ _ _ k _ hs.symm rfl hk hc rfl (by simp [hs]) rfl (by simp) rfl
          · exact .other _ _ _ rfl rfl rfl (by simp [fail]) (by simp [fail, hp]) (by simp [fail])
  | stage2 =>
    show Did s n _ (onStage2 s n).1 (onStage2 s n).2
    unfold onStage2
    cases hk : s.kem with
    | none => exact .other _ _ _ rfl rfl rfl (fun _ h _ => h) (fun h => .inl h) (by simp)
    | some k =>
      simp only
      cases hc : k.con with
      | none => exact .other _ _ _ (by simp) rfl rfl (by simp) (by simp [hp]) (by simp)
      | some c =>
        cases c with
        | alice _ => exact .other _ _ _ (by simp) rfl rfl (by simp) (by simp [hp]) (by simp)
        | bob x y =>
          simp only
          cases hs : s.psk with
          | none =>
            simp only [create, setKem_psk, hs]
            exact .other _ _ _ (by simp [hs]) rfl rfl (by simp) (fun _ => .inr hs) (by simp)
          | some q =>
            simp only [create, setKem_psk, hs]
            split
            · rename_i h; split at h <;> cases h
            · exact .other _ _ _ rfl rfl rfl (by simp) (by simp [hp]) (by simp)
            · rename_i h
              split at h
              · cases h
              · cases h
                exact .stage2 x y k _ hs.symm rfl hk hc (by simp [hs]) rfl (by simp) rfl
  | disconnect t =>
    show Did s n _ (onDisconnect s t).1 (onDisconnect s t).2
    unfold onDisconnect
    split
    · exact .other _ _ _ rfl rfl rfl (fun _ h _ => h) (fun h => .inl h) (by simp)
    · exact .other _ _ _ rfl rfl rfl (fun _ h _ => h) (fun h => .inl h) (by simp)
  | error => exact .other _ _ _ rfl rfl rfl (fun _ h _ => h) (fun h => .inl h) (by simp)

/-- The end of a hole punching and of a channel leave keys alone, and send at most a request to disconnect. -/
structure Idle (s s' : Slot) (out : List Msg) : Prop where
  psk : s'.psk = s.psk
  who : s'.who = s.who
  made : s'.made = s.made
  kem : s'.kem = s.kem
  panicked : s'.panicked = s.panicked
  out : ∀ o ∈ out, ∃ t, o = .disconnect t

theorem idle_drop (s : Slot) (id : Nat) : Idle s (dropChannel s id).1 (dropChannel s id).2 := by
  unfold dropChannel
  split
  · exact ⟨rfl, rfl, rfl, rfl, rfl, by simp⟩
  · split
    · exact ⟨rfl, rfl, rfl, rfl, rfl, by simp⟩
    · split
      · exact ⟨rfl, rfl, rfl, rfl, rfl, by simp⟩
      · exact ⟨rfl, rfl, rfl, rfl, rfl, by simp⟩

theorem idle_punched (s : Slot) (n : Nat) (u : Bool) : Idle s (punched s n u).1 (punched s n u).2 := by
  unfold punched
  split
  · exact ⟨rfl, rfl, rfl, rfl, rfl, by simp⟩
  · simp only
    split
    · have h := idle_drop { s with punches := s.punches.filter (·.n ≠ n) } (by assumption : Punch).id
      exact ⟨h.psk, h.who, h.made, h.kem, h.panicked, h.out⟩
    · exact ⟨rfl, rfl, rfl, rfl, rfl, by simp⟩

/-- An ask sets the password. -/
theorem ask_spec (s : Slot) (p : Nat) (m : Msg) :
    ((ask s p m).1 = s ∧ (ask s p m).2 = [] ∧ s.panicked = true) ∨
      ((ask s p m).1 = { s with psk := some p, asked := true } ∧ (ask s p m).2 = [m] ∧ s.panicked = false) := by
  unfold ask
  split
  · exact .inl ⟨rfl, rfl, by assumption⟩
  · rename_i h; exact .inr ⟨rfl, rfl, by simpa using h⟩

/-! ### Hostile runs -/

@[simp] theorem did_slot_same (w : Hostile) (i : Side) (r : Slot × List Msg) : (w.did i r).slot i = r.1 := by
  cases i <;> rfl

theorem did_slot_flip (w : Hostile) (i : Side) (r : Slot × List Msg) : (w.did i r).slot i.flip = w.slot i.flip := by
  cases i <;> rfl

theorem did_slot_ne (w : Hostile) {i j : Side} (h : j ≠ i) (r : Slot × List Msg) :
    (w.did i r).slot j = w.slot j := by
  cases i <;> cases j <;> first | rfl | exact absurd rfl h

/-- A property of one slot that its steps keep holds along every run whose asks are fit. -/
theorem hrun_slot {known : Nat → Bool} (i : Side) (Q : Slot → Prop) (fit : Nat → Prop)
    (ha : ∀ s p m, fit p → Q s → Q (ask s p m).1) (hh : ∀ s n m, Q s → Q (handle s n m).1)
    (hi : ∀ s s' out, Idle s s' out → Q s → Q s') (acts : List HAct) :
    ∀ w : Hostile, Q (w.slot i) → (∀ p m, HAct.ask i p m ∈ acts → fit p) → Q ((hrun known w acts).slot i) := by
  induction acts with
  | nil => intro w h _; exact h
  | cons t ts ih =>
    intro w h hf
    refine ih _ ?_ (fun p m hm => hf p m (List.mem_cons_of_mem _ hm))
    cases t with
    | ask j p m =>
      simp only [hstep]
      split
      · by_cases hj : i = j
        · subst hj
          rw [did_slot_same]
          exact ha _ _ _ (hf p m (List.mem_cons_self ..)) h
        · rw [did_slot_ne _ hj]; exact h
      · exact h
    | say j m =>
      simp only [hstep]
      split
      · by_cases hj : i = j
        · subst hj
          rw [did_slot_same]
          exact hh _ _ _ h
        · rw [did_slot_ne _ hj]; exact h
      · exact h
    | punched j n u =>
      simp only [hstep]
      by_cases hj : i = j
      · subst hj
        rw [did_slot_same]
        exact hi _ _ _ (idle_punched _ _ _) h
      · rw [did_slot_ne _ hj]; exact h
    | dropped j id =>
      simp only [hstep]
      by_cases hj : i = j
      · subst hj
        rw [did_slot_same]
        exact hi _ _ _ (idle_drop _ _) h
      · rw [did_slot_ne _ hj]; exact h

/-- Only passwords the relay does not know are in use. -/
def Secret (known : Nat → Bool) (s : Slot) : Prop :=
  (∃ p, s.psk = some p ∧ known p = false) ∧
  (∀ k, s.kem = some k → k.con.isSome → known k.psk = false) ∧
  ∀ c ∈ s.made, known c.1.psk = false

theorem secret_ask {known : Nat → Bool} (s : Slot) (p : Nat) (m : Msg) (hp : known p = false)
    (h : Secret known s) : Secret known (ask s p m).1 := by
  rcases ask_spec s p m with ⟨e, -, -⟩ | ⟨e, -, -⟩
  · rw [e]; exact h
  · rw [e]; exact ⟨⟨p, rfl, hp⟩, h.2.1, h.2.2⟩

theorem secret_handle {known : Nat → Bool} (s : Slot) (n : Nat) (m : Msg) (h : Secret known s) :
    Secret known (handle s n m).1 := by
  obtain ⟨⟨p, hp, hu⟩, hk, hm⟩ := h
  have hd := did_handle s n m
  generalize (handle s n m).1 = s' at hd ⊢
  generalize (handle s n m).2 = out at hd
  cases hd with
  | other _ _ _ h1 h2 h3 h4 h5 h6 =>
    exact ⟨⟨p, h1.trans hp, hu⟩, fun k' e hc => hk k' (h4 k' e hc) hc, by rw [h3]; exact hm⟩
  | accept _ h1 h2 h3 h4 h5 =>
    refine ⟨⟨p, h1.trans hp, hu⟩, fun k' e hc => ?_, by rw [h3]; exact hm⟩
    rw [h4] at e; cases e; simp [hp, hu]
  | stage0 x id _ h1 h2 h3 h4 h5 =>
    refine ⟨⟨p, h1.trans hp, hu⟩, fun k' e hc => ?_, by rw [h3]; exact hm⟩
    rw [h4] at e; cases e; simp [hp, hu]
  | stage1 x y psk id k _ h1 h2 h3 h4 h5 h6 h7 h8 h9 =>
    refine ⟨⟨p, h1.trans hp, hu⟩, fun k' e hc => ?_, ?_⟩
    · rw [h8 k' e] at hc; cases hc
    · rw [h7]
      intro c hc
      rcases List.mem_cons.1 hc with rfl | hc
      · have := hk k h3 (by simp [h4]); simpa [h5] using this
      · exact hm c hc
  | stage2 x y k _ h1 h2 h3 h4 h6 h7 h8 h9 =>
    refine ⟨⟨p, h1.trans hp, hu⟩, fun k' e hc => ?_, ?_⟩
    · rw [h8 k' e] at hc; cases hc
    · rw [h7]
      intro c hc
      rcases List.mem_cons.1 hc with rfl | hc
      · exact hk k h3 (by simp [h4])
      · exact hm c hc

theorem secret_idle {known : Nat → Bool} (s s' : Slot) (out : List Msg) (hi : Idle s s' out) (h : Secret known s) :
    Secret known s' := by
  obtain ⟨⟨p, hp, hu⟩, hk, hm⟩ := h
  exact ⟨⟨p, hi.psk.trans hp, hu⟩, by rw [hi.kem]; exact hk, by rw [hi.made]; exact hm⟩

/-! ### Authentication of Bob to Alice -/

/-- What the clients have sent and hold. -/
structure Auth (w : Hostile) : Prop where
  whoA : w.a.who = .a
  whoB : w.b.who = .b
  sent0 : ∀ x id, Msg.stage0 x id ∈ w.sent → x.n < w.next
  sent1 : ∀ x y psk id, Msg.stage1 x y psk id ∈ w.sent →
    (x.who = .other ∨ x.n < w.next) ∧ y.who ≠ .other
  alice : ∀ i k x, (w.slot i).kem = some k → k.con = some (.alice x) →
    x.who = i.who ∧ x.n < w.next ∧ ∀ y psk id, Msg.stage1 x y psk id ∈ w.sent → y.who ≠ i.who

theorem auth_start (ca cb : Nat) : Auth (hostile ca cb) :=
  ⟨rfl, rfl, by simp [hostile], by simp [hostile], by intro i k x h; cases i <;> simp [hostile, Hostile.slot] at h⟩

theorem slot_who {w : Hostile} (h : Auth w) (i : Side) : (w.slot i).who = i.who := by
  cases i
  · exact h.whoA
  · exact h.whoB

/-- A step that sends no message of a key exchange and makes no new constructor. -/
theorem auth_quiet {w : Hostile} (h : Auth w) (i : Side) (s' : Slot) (out : List Msg)
    (hw : s'.who = (w.slot i).who)
    (hk : ∀ k', s'.kem = some k' → k'.con.isSome → (w.slot i).kem = some k')
    (h0 : ∀ x id, Msg.stage0 x id ∉ out) (h1 : ∀ x y psk id, Msg.stage1 x y psk id ∉ out) :
    Auth (w.did i (s', out)) := by
  have hsent : (w.did i (s', out)).sent = w.sent ++ out := by cases i <;> rfl
  have hnext : (w.did i (s', out)).next = w.next + 1 := by cases i <;> rfl
  refine ⟨?_, ?_, ?_, ?_, ?_⟩
  · cases i
    · exact hw.trans h.whoA
    · exact h.whoA
  · cases i
    · exact h.whoB
    · exact hw.trans h.whoB
  · rw [hsent, hnext]
    intro x id hm
    rcases List.mem_append.1 hm with hm | hm
    · have := h.sent0 x id hm; omega
    · exact absurd hm (h0 x id)
  · rw [hsent, hnext]
    intro x y psk id hm
    rcases List.mem_append.1 hm with hm | hm
    · have := h.sent1 x y psk id hm
      exact ⟨this.1.imp_right (fun h => by omega), this.2⟩
    · exact absurd hm (h1 x y psk id)
  · rw [hsent, hnext]
    intro j k x hj hc
    have hold : (w.slot j).kem = some k := by
      by_cases e : j = i
      · subst e
        rw [did_slot_same] at hj
        exact hk k hj (by simp [hc])
      · rwa [did_slot_ne _ e] at hj
    obtain ⟨q1, q2, q3⟩ := h.alice j k x hold hc
    refine ⟨q1, by omega, fun y psk id hm => ?_⟩
    rcases List.mem_append.1 hm with hm | hm
    · exact q3 y psk id hm
    · exact absurd hm (h1 x y psk id)

theorem seen0_iff {sent : List Msg} {x : Nonce} : seen0 sent x = true ↔ ∃ id, Msg.stage0 x id ∈ sent := by
  unfold seen0
  rw [List.any_eq_true]
  constructor
  · rintro ⟨m, hm, h⟩
    cases m with
    | stage0 x' id =>
      have : x' = x := by simpa using h
      subst this; exact ⟨id, hm⟩
    | _ => simp at h
  · rintro ⟨id, hm⟩
    exact ⟨_, hm, by simp⟩

theorem seen1_iff {sent : List Msg} {x y : Nonce} {psk : Nat} :
    seen1 sent x y psk = true ↔ ∃ id, Msg.stage1 x y psk id ∈ sent := by
  unfold seen1
  rw [List.any_eq_true]
  constructor
  · rintro ⟨m, hm, h⟩
    cases m with
    | stage1 x' y' p' id =>
      have : (x' = x ∧ y' = y) ∧ p' = psk := by simpa using h
      obtain ⟨⟨rfl, rfl⟩, rfl⟩ := this; exact ⟨id, hm⟩
    | _ => simp at h
  · rintro ⟨id, hm⟩
    exact ⟨_, hm, by simp⟩

theorem auth_step {known : Nat → Bool} {w : Hostile} (h : Auth w) (t : HAct) : Auth (hstep known w t) := by
  cases t with
  | ask i p m =>
    simp only [hstep]
    split
    · rename_i hm
      rcases ask_spec (w.slot i) p m with ⟨e1, e2, -⟩ | ⟨e1, e2, -⟩
      · rw [show ask (w.slot i) p m = (w.slot i, []) from Prod.ext e1 e2]
        exact auth_quiet h i _ _ rfl (fun _ q _ => q) (by simp) (by simp)
      · rw [show ask (w.slot i) p m = (_, [m]) from Prod.ext e1 e2]
        exact auth_quiet h i _ _ rfl (fun _ q _ => q) (by rcases hm with rfl | rfl <;> simp)
          (by rcases hm with rfl | rfl <;> simp)
    · exact h
  | punched i n u =>
    have hi := idle_punched (w.slot i) n u
    exact auth_quiet h i (punched (w.slot i) n u).1 (punched (w.slot i) n u).2 hi.who (fun _ q _ => hi.kem ▸ q)
      (fun x id hm => by obtain ⟨t, e⟩ := hi.out _ hm; cases e)
      (fun x y p id hm => by obtain ⟨t, e⟩ := hi.out _ hm; cases e)
  | dropped i id =>
    have hi := idle_drop (w.slot i) id
    exact auth_quiet h i (dropChannel (w.slot i) id).1 (dropChannel (w.slot i) id).2 hi.who (fun _ q _ => hi.kem ▸ q)
      (fun x id hm => by obtain ⟨t, e⟩ := hi.out _ hm; cases e)
      (fun x y p id hm => by obtain ⟨t, e⟩ := hi.out _ hm; cases e)
  | say i m =>
    simp only [hstep]
    split
    · rename_i hf
      have hd := did_handle (w.slot i) w.next m
      show Auth (w.did i ((handle (w.slot i) w.next m).1, (handle (w.slot i) w.next m).2))
      generalize (handle (w.slot i) w.next m).1 = s' at hd ⊢
      generalize (handle (w.slot i) w.next m).2 = out at hd ⊢
      have hsent : (w.did i (s', out)).sent = w.sent ++ out := by cases i <;> rfl
      have hnext : (w.did i (s', out)).next = w.next + 1 := by cases i <;> rfl
      have hwA : s'.who = (w.slot i).who → (w.did i (s', out)).a.who = .a := by
        intro hw; cases i
        · exact hw.trans h.whoA
        · exact h.whoA
      have hwB : s'.who = (w.slot i).who → (w.did i (s', out)).b.who = .b := by
        intro hw; cases i
        · exact h.whoB
        · exact hw.trans h.whoB
      have hown := slot_who h i
      cases hd with
      | other _ _ _ h1 h2 h3 h4 h5 h6 =>
        exact auth_quiet h i _ _ h2 h4 (fun x id hm => by rcases h6 _ hm with e | e <;> cases e)
          (fun x y p id hm => by rcases h6 _ hm with e | e <;> cases e)
      | stage1 x y psk id k _ h1 h2 h3 h4 h5 h6 h7 h8 h9 =>
        exact auth_quiet h i _ _ h2 (fun k' e hc => by rw [h8 k' e] at hc; cases hc) (by simp) (by simp)
      | stage2 x y k _ h1 h2 h3 h4 h6 h7 h8 h9 =>
        exact auth_quiet h i _ _ h2 (fun k' e hc => by rw [h8 k' e] at hc; cases hc) (by simp) (by simp)
      | accept _ h1 h2 h3 h4 h5 =>
        refine ⟨hwA h2, hwB h2, ?_, ?_, ?_⟩
        · rw [hsent, hnext]
          intro x id hm
          rcases List.mem_append.1 hm with hm | hm
          · have := h.sent0 x id hm; omega
          · simp at hm; rw [hm.1]; simp
        · rw [hsent, hnext]
          intro x y psk id hm
          rcases List.mem_append.1 hm with hm | hm
          · have := h.sent1 x y psk id hm
            exact ⟨this.1.imp_right (fun h => by omega), this.2⟩
          · simp at hm
        · rw [hsent, hnext]
          intro j k x hj hc
          by_cases e : j = i
          · subst e
            rw [did_slot_same] at hj
            have hj : s'.kem = some k := hj
            rw [h4] at hj; cases hj
            simp at hc; subst hc
            refine ⟨hown, by simp, fun y psk id hm => ?_⟩
            rcases List.mem_append.1 hm with hm | hm
            · have := (h.sent1 _ _ _ _ hm).1
              rcases this with q | q
              · simp [hown] at q; cases j <;> simp [Side.who] at q
              · simp at q
            · simp at hm
          · rw [did_slot_ne _ e] at hj
            obtain ⟨q1, q2, q3⟩ := h.alice j k x hj hc
            refine ⟨q1, by omega, fun y psk id hm => ?_⟩
            rcases List.mem_append.1 hm with hm | hm
            · exact q3 y psk id hm
            · simp at hm
      | stage0 x0 id0 _ h1 h2 h3 h4 h5 =>
        have hx : x0.who = .other ∨ x0.n < w.next := by
          simp only [forge, Bool.or_eq_true, beq_iff_eq] at hf
          rcases hf with q | q
          · exact .inl q
          · obtain ⟨id, q⟩ := seen0_iff.1 q
            exact .inr (h.sent0 _ _ q)
        refine ⟨hwA h2, hwB h2, ?_, ?_, ?_⟩
        · rw [hsent, hnext]
          intro x id hm
          rcases List.mem_append.1 hm with hm | hm
          · have := h.sent0 x id hm; omega
          · simp at hm
        · rw [hsent, hnext]
          intro x y psk id hm
          rcases List.mem_append.1 hm with hm | hm
          · have := h.sent1 x y psk id hm
            exact ⟨this.1.imp_right (fun h => by omega), this.2⟩
          · simp only [List.mem_singleton, Msg.stage1.injEq] at hm
            obtain ⟨rfl, rfl, -, -⟩ := hm
            refine ⟨hx.imp_right (fun h => by omega), ?_⟩
            simp only [hown]; cases i <;> simp [Side.who]
        · rw [hsent, hnext]
          intro j k x hj hc
          by_cases e : j = i
          · subst e
            rw [did_slot_same] at hj
            have hj : s'.kem = some k := hj
            rw [h4] at hj; cases hj
            simp at hc
          · rw [did_slot_ne _ e] at hj
            obtain ⟨q1, q2, q3⟩ := h.alice j k x hj hc
            refine ⟨q1, by omega, fun y psk id hm => ?_⟩
            rcases List.mem_append.1 hm with hm | hm
            · exact q3 y psk id hm
            · simp only [List.mem_singleton, Msg.stage1.injEq] at hm
              obtain ⟨rfl, rfl, -, -⟩ := hm
              simp only [hown]
              cases i <;> cases j <;> first | exact absurd rfl e | simp [Side.who]
    · exact h

theorem auth_run {known : Nat → Bool} (acts : List HAct) : ∀ w : Hostile, Auth w → Auth (hrun known w acts) := by
  induction acts with
  | nil => intro w h; exact h
  | cons t ts ih => intro w h; exact ih _ (auth_step h t)

end Verif.PeerKex

import Verif.PeerSignals.Lemmas

/-! Properties C55-C58: who may delete accounts, who becomes registered with whom, what a reported deregistration
means, and whether one client can block the account store. -/
namespace Verif.PeerSignals
open Verif

/-- **C55 is false.** The server deletes the account named in the packet header, not the account of the session the
packet arrived on: in every state, any connected client `c` can delete any account `v`. -/
theorem C55_counterexample_delete_any (s : Server) (c v : Nat) (hc : c ∈ s.sessions)
    (hd : s.store.deadlocked = false) (hp : s.store.pending = []) (hv : s.store.accts.contains v = true) :
    (step s (.deleteAccount c v)).2 = .deleted v ∧
    (step s (.deleteAccount c v)).1.store.accts.contains v = false := by
  have e : Mutuals.delete s.store v = ((Mutuals.peers s.store v).foldl (Mutuals.delStep v)
      { s.store with accts := s.store.accts.erase v }, .ok) := by
    rw [Mutuals.delete_eq, if_neg (by simp [hp]), if_pos hv]
  simp only [step, hc, if_true, deleteAccount, hd, Bool.false_eq_true, if_false, e, true_and]
  rw [(Mutuals.delLoop_other v _ _).1 v]
  simp [AMap.contains]

/-- The situation is reachable with two different clients. -/
example : let s := after [.newAccount 1, .newAccount 2, .connect 1, .connect 2]
    1 ∈ s.sessions ∧ s.store.deadlocked = false ∧ s.store.pending = [] ∧ s.store.accts.contains 2 = true := by decide

/-- **C55 (partial).** If every client puts its own cid into the header, an account is deleted only on request of its
own session. Missing: the server does not compare the header with the session. -/
theorem C55_own_account_partial (ops : List Op) (hh : ∀ op ∈ ops, HonestHeader op) (op : Op) (v : Nat)
    (h : (op, Event.deleted v) ∈ (run init ops).2) : op = .deleteAccount v v := by
  obtain ⟨s, h1, h2⟩ := run_trace init ops op _ h
  have hon := hh op h2
  cases op with
  | deleteAccount c hd =>
    simp only [step] at h1
    split at h1
    · unfold deleteAccount at h1
      simp only at h1
      generalize (if s.store.deadlocked = true then (s.store, Mutuals.Outcome.blocked)
        else Mutuals.delete s.store hd) = r at h1
      split at h1
      · cases h1
        have : v = c := hon
        rw [this]
      · cases h1
    · cases h1
  | newAccount c => simp only [step] at h1; split at h1 <;> cases h1
  | connect c => simp only [step] at h1; split at h1 <;> cases h1
  | disconnect c => cases h1
  | postRegister c hd target t =>
    simp only [step] at h1
    split at h1
    · unfold request at h1
      split at h1
      · unfold respond doRegister at h1
        split at h1
        · simp only at h1
          split at h1
          · simp only [Bool.false_eq_true, if_false] at h1
            generalize (if s.store.deadlocked = true then (s.store, Mutuals.Outcome.blocked)
              else Mutuals.register s.store hd target) = r at h1
            split at h1 <;> cases h1
          · cases h1
        · cases h1
      · split at h1
        · cases h1
        · split at h1 <;> cases h1
    · cases h1
  | answerRegister c hd target t d =>
    simp only [step] at h1
    split at h1
    · unfold respond doRegister at h1
      split at h1
      · simp only at h1
        split at h1
        · split at h1
          · cases h1
          · simp only at h1
            generalize (if s.store.deadlocked = true then (s.store, Mutuals.Outcome.blocked)
              else Mutuals.register s.store hd target) = r at h1
            split at h1 <;> cases h1
        · cases h1
      · cases h1
    · cases h1
  | postOther c hd t => simp only [step] at h1; split at h1 <;> cases h1
  | deregister c x y t =>
    simp only [step] at h1
    split at h1
    · unfold deregister at h1
      split at h1
      · cases h1
      · simp only at h1
        generalize (if s.store.deadlocked = true then (s.store, Mutuals.Outcome.blocked)
          else Mutuals.deregister s.store x y) = r at h1
        split at h1 <;> cases h1
    · cases h1
  | expire o t => cases h1

example : let ops : List Op := [.newAccount 1, .newAccount 2, .connect 1, .deleteAccount 1 1]
    (∀ op ∈ ops, HonestHeader op) ∧ (Op.deleteAccount 1 1, Event.deleted 1) ∈ (run init ops).2 := by decide

/-- **C56 is false.** With honest headers throughout: client 1 asks client 2 (ticket 5); client 3, who was never asked and
never asked, answers with that ticket and becomes registered with client 1. -/
theorem C56_counterexample_uninvited :
    let ops : List Op := [.newAccount 1, .newAccount 2, .newAccount 3, .connect 1, .connect 2, .connect 3,
      .postRegister 1 1 2 5, .answerRegister 3 3 1 5 false]
    (∀ op ∈ ops, HonestHeader op) ∧ Event.registered 3 1 ∈ (run init ops).2.map Prod.snd ∧
    3 ∈ Mutuals.peers (after ops).store 1 ∧ 1 ∈ Mutuals.peers (after ops).store 3 := by decide

/-- **C56 (partial).** If clients use their own cid and answer only invitations addressed to them, then whenever the
server registers `a` with `b`, `b` had asked for `a` before and `a` is now accepting that very request or asking for `b`
itself. Missing: the server does not check that the answer comes from the invited client. -/
theorem C56_consent_partial (ops : List Op) (hh : ∀ op ∈ ops, HonestHeader op) (ha : AnswersOwnInvitations ops)
    (pre : List Op) (op : Op) (post : List Op) (e : ops = pre ++ op :: post) (a b : Nat)
    (h : (step (after pre) op).2 = .registered a b) :
    ∃ t, Op.postRegister b b a t ∈ pre ∧ (op = .answerRegister a a b t false ∨ ∃ t', op = .postRegister a a b t') := by
  have hpre : ∀ op ∈ pre, HonestHeader op := fun o ho => hh o (by rw [e]; exact List.mem_append_left _ ho)
  have hop : HonestHeader op := hh op (by rw [e]; simp)
  rcases step_registered h with ⟨c, t, rfl, hc⟩ | ⟨c, t, t', rfl, hm⟩
  · have hc' : a = c := hop
    subst hc'
    obtain ⟨sig, hs⟩ := Option.isSome_iff_exists.1 hc
    have := ha pre a a b t false post e sig hs
    subst this
    exact ⟨t, posting_asked pre hpre b t a (AMap.get?_mem hs), Or.inl rfl⟩
  · have hc' : a = c := hop
    subst hc'
    exact ⟨t, posting_asked pre hpre b t a hm, Or.inr ⟨t', rfl⟩⟩

/-- The hypotheses are met by an invitation that is accepted. -/
example : let ops : List Op := [.newAccount 1, .newAccount 2, .connect 1, .connect 2,
      .postRegister 1 1 2 5, .answerRegister 2 2 1 5 false]
    (∀ op ∈ ops, HonestHeader op) ∧ AnswersOwnInvitations ops ∧
    (step (after (ops.take 5)) (.answerRegister 2 2 1 5 false)).2 = .registered 2 1 := by
  refine ⟨by decide, ?_, by decide⟩
  intro pre c h target ticket d post e sig hs
  rcases pre with _ | ⟨p1, _ | ⟨p2, _ | ⟨p3, _ | ⟨p4, _ | ⟨p5, _ | ⟨p6, rest⟩⟩⟩⟩⟩⟩ <;> simp at e
  obtain ⟨rfl, rfl, rfl, rfl, rfl, ⟨rfl, rfl, rfl, rfl, rfl⟩, rfl⟩ := e
  have : (after [.newAccount 1, .newAccount 2, .connect 1, .connect 2, .postRegister 1 1 2 5]).postings.get? (1, 5) =
    some (.register 2) := by decide
  rw [this] at hs
  exact (Option.some.inj hs).symm

/-- **C57 is false.** After 1 and 2 were registered, deregistered by 1 and registered again, a deregistration by 2 within
the life time of the old posting (one hour) is reported as successful although nothing is removed. -/
theorem C57_counterexample_stale_posting :
    let ops : List Op := [.newAccount 1, .newAccount 2, .connect 1, .connect 2,
      .postRegister 1 1 2 5, .answerRegister 2 2 1 5 false, .deregister 1 1 2 6,
      .postRegister 1 1 2 7, .answerRegister 2 2 1 7 false, .deregister 2 2 1 8]
    (run init ops).2.getLast? = some (.deregister 2 2 1 8, .deregistrationReported 2 1) ∧
    2 ∈ Mutuals.peers (after ops).store 1 ∧ 1 ∈ Mutuals.peers (after ops).store 2 := by decide

/-- **C57 (partial).** If the other side has no outstanding "deregistered" posting for this pair, then a reported
deregistration has removed exactly one entry on each side. Missing: outstanding postings (for which the claim is
false), and pairs registered more than once (C47). -/
theorem C57_reported_removed_partial (s : Server) (c a b ticket : Nat)
    (hself : a ∉ Mutuals.peers s.store a)
    (hst : ∀ t, ((b, t), Signal.deregistered a) ∉ s.postings)
    (h : (step s (.deregister c a b ticket)).2 = .deregistrationReported a b) :
    let st' := (step s (.deregister c a b ticket)).1.store
    (Mutuals.peers st' a).count b = (Mutuals.peers s.store a).count b - 1 ∧
    (Mutuals.peers st' b).count a = (Mutuals.peers s.store b).count a - 1 ∧ 0 < (Mutuals.peers s.store a).count b := by
  simp only [step] at h ⊢
  split at h
  · rename_i hc
    simp only [hc, if_true]
    have hsim : simultaneousDeregister s a b = false := by
      unfold simultaneousDeregister
      rw [List.any_eq_false]
      rintro ⟨⟨o, t⟩, sig⟩ hm
      simp only [Bool.and_eq_true, decide_eq_true_eq, not_and]
      rintro rfl rfl
      exact hst t hm
    unfold deregister at h ⊢
    simp only [hsim, Bool.false_eq_true, if_false] at h ⊢
    by_cases hd : s.store.deadlocked = true
    · simp [hd] at h
    · simp only [hd, if_false, Bool.false_eq_true] at h ⊢
      by_cases hok : (Mutuals.deregister s.store a b).2 = .ok
      · simp only [hok, if_true, insertPosting_store]
        have hz : Mutuals.cnt s.store a a = 0 := List.count_eq_zero.2 hself
        have h1 := Mutuals.deregister_ok s.store a b hz hok a b
        have h2 := Mutuals.deregister_ok s.store a b hz hok b a
        rw [if_pos (Or.inl ⟨rfl, rfl⟩)] at h1
        rw [if_pos (Or.inr ⟨rfl, rfl⟩)] at h2
        refine ⟨h1, h2, ?_⟩
        unfold Mutuals.deregister at hok
        by_cases hs : (Mutuals.deregStart s.store a b).2 = .ok
        · exact List.count_pos_iff.2 (Mutuals.deregStart_ok s.store a b hs).2.2.1
        · simp only [hs, if_false] at hok
      · simp [hok] at h
  · cases h

/-- The hypotheses are met after a first registration. -/
example : let s := after [.newAccount 1, .newAccount 2, .connect 1, .connect 2,
      .postRegister 1 1 2 5, .answerRegister 2 2 1 5 false]
    1 ∉ Mutuals.peers s.store 1 ∧ s.postings = [] ∧
    (step s (.deregister 1 1 2 6)).2 = .deregistrationReported 1 2 := by decide

/-- **C58 is false.** A client that answers its own registration request blocks the account store (it waits for a lock
it holds), with honest headers. -/
theorem C58_counterexample_self_answer :
    let ops : List Op := [.newAccount 1, .newAccount 2, .connect 1, .postRegister 1 1 2 5, .answerRegister 1 1 1 5 false]
    (∀ op ∈ ops, HonestHeader op) ∧ (after ops).store.deadlocked = true := by decide

/-- From then on no request of anybody changes the account store. -/
theorem C58_blocked_forever (s : Server) (h : s.store.deadlocked = true) (ops : List Op) :
    (run s ops).1.store = s.store := by
  induction ops generalizing s with
  | nil => rfl
  | cons op ops ih =>
    have hs : (step s op).1.store = s.store := by
      cases op with
      | newAccount c => simp [step, h]
      | connect c => simp only [step]; split <;> rfl
      | disconnect c => rfl
      | postRegister c hd target t =>
        simp only [step]
        split
        · unfold request
          split
          · unfold respond doRegister
            simp only [h, if_true]
            split
            · simp
            · rfl
          · split
            · rfl
            · split
              · exact insertPosting_store ..
              · rfl
        · rfl
      | answerRegister c hd target t d =>
        simp only [step]
        split
        · unfold respond doRegister
          simp only [h, if_true]
          split
          · split
            · split <;> rfl
            · rfl
          · rfl
        · rfl
      | postOther c hd t => simp only [step]; split; exacts [insertPosting_store .., rfl]
      | deregister c a b t =>
        simp only [step]
        split
        · unfold deregister
          split
          · rfl
          · rfl
        · rfl
      | deleteAccount c hd => simp only [step]; split; exacts [by simp [deleteAccount, h], rfl]
      | expire o t => rfl
    show (run (step s op).1 ops).1.store = s.store
    rw [ih _ (by rw [hs]; exact h), hs]

/-- **C58 (partial).** If clients answer only invitations addressed to the cid they use, the account store is never
blocked by a registration. Missing: the server does not check this. -/
theorem C58_never_blocked_partial (ops : List Op) (ha : AnswersOwnInvitations ops) :
    (after ops).store.deadlocked = false := by
  induction ops using List.reverseRecOn with
  | nil => rfl
  | append_singleton ops op ih =>
    have ih := ih ha.init
    rw [after_snoc]
    generalize hs : after ops = s at ih ⊢
    cases op with
    | newAccount c =>
      simp only [step, ih, Bool.false_eq_true, if_false]
      unfold Mutuals.create
      split <;> exact ih
    | connect c => simp only [step]; split <;> exact ih
    | disconnect c => exact ih
    | postRegister c hd target t =>
      simp only [step]
      split
      · unfold request
        split
        · rename_i t0 hsim
          refine respond_dead ih (fun _ => ?_)
          have := simultaneous_mem hsim
          rw [← hs] at this
          exact (posting_ne ops _ _ _ this).symm
        · split
          · exact ih
          · split
            · simp only [insertPosting_store]; exact ih
            · exact ih
      · exact ih
    | answerRegister c hd target t d =>
      simp only [step]
      split
      · refine respond_dead ih (fun hc => ?_)
        obtain ⟨sig, hg⟩ := Option.isSome_iff_exists.1 hc
        rw [← hs] at hg
        have := ha ops c hd target t d [] rfl sig hg
        subst this
        exact (posting_ne ops _ _ _ (AMap.get?_mem hg)).symm
      · exact ih
    | postOther c hd t =>
      simp only [step]
      split
      · simp only [insertPosting_store]; exact ih
      · exact ih
    | deregister c a b t =>
      simp only [step]
      split
      · unfold deregister
        split
        · exact ih
        · simp only [ih, Bool.false_eq_true, if_false]
          split
          · simp only [insertPosting_store, dereg_dead]; exact ih
          · simp only [dereg_dead]; exact ih
      · exact ih
    | deleteAccount c hd =>
      simp only [step]
      split
      · simp only [deleteAccount, ih, Bool.false_eq_true, if_false, delete_dead]
      · exact ih
    | expire o t => exact ih

end Verif.PeerSignals

import Verif.PeerSignals.Spec
import Verif.Mutuals.Lemmas
import Mathlib.Data.List.Induction

namespace Verif.PeerSignals
open Verif

theorem after_snoc (ops : List Op) (op : Op) : after (ops ++ [op]) = (step (after ops) op).1 := by
  unfold after
  suffices h : ∀ s, (run s (ops ++ [op])).1 = (step (run s ops).1 op).1 from h init
  induction ops with
  | nil => intro s; rfl
  | cons o ops ih => intro s; exact ih _

theorem AnswersOwnInvitations.init {ops : List Op} {op : Op} (h : AnswersOwnInvitations (ops ++ [op])) :
    AnswersOwnInvitations ops := by
  intro pre c hd target ticket d post e
  exact h pre c hd target ticket d (post ++ [op]) (by rw [e]; simp)

theorem run_trace (s : Server) (ops : List Op) (op : Op) (ev : Event) (h : (op, ev) ∈ (run s ops).2) :
    ∃ s', (step s' op).2 = ev ∧ op ∈ ops := by
  induction ops generalizing s with
  | nil => simp [run] at h
  | cons o ops ih =>
    rcases List.mem_cons.1 h with h | h
    · cases h; exact ⟨s, rfl, List.mem_cons_self ..⟩
    · obtain ⟨s', h1, h2⟩ := ih _ h; exact ⟨s', h1, List.mem_cons_of_mem _ h2⟩

theorem mem_insert {m : AMap (Nat × Nat) Signal} {k : Nat × Nat} {v : Signal} {e : (Nat × Nat) × Signal}
    (h : e ∈ m.insert k v) : e = (k, v) ∨ e ∈ m := by
  unfold AMap.insert at h
  rcases List.mem_cons.1 h with h | h
  · exact Or.inl h
  · exact Or.inr ((List.mem_filter.1 h).1)

theorem mem_insertPosting {s : Server} {o t : Nat} {sig : Signal} {e : (Nat × Nat) × Signal}
    (h : e ∈ (insertPosting s o t sig).postings) : e = ((o, t), sig) ∨ e ∈ s.postings := by
  unfold insertPosting at h
  split at h
  · exact mem_insert h
  · exact Or.inr h

theorem doRegister_postings (s : Server) (a b : Nat) : (doRegister s a b).1.postings = s.postings := rfl

theorem respond_postings {s : Server} {me target ticket : Nat} {d : Bool} {e : (Nat × Nat) × Signal}
    (h : e ∈ (respond s me target ticket d).1.postings) : e ∈ s.postings := by
  unfold respond at h
  split at h
  · simp only at h
    split at h
    · split at h
      · exact (List.mem_filter.1 h).1
      · rw [doRegister_postings] at h; exact (List.mem_filter.1 h).1
    · exact (List.mem_filter.1 h).1
  · exact h

/-- Where postings come from. -/
theorem step_postings {s : Server} {op : Op} {e : (Nat × Nat) × Signal} (h : e ∈ (step s op).1.postings) :
    e ∈ s.postings ∨
    (∃ c hd target t, op = .postRegister c hd target t ∧ hd ≠ target ∧ e = ((hd, t), .register target)) ∨
    (∃ c hd t, op = .postOther c hd t ∧ e = ((hd, t), .other)) ∨
    (∃ c a b t, op = .deregister c a b t ∧ e = ((a, t), .deregistered b)) := by
  cases op with
  | newAccount c => simp only [step] at h; split at h <;> exact Or.inl h
  | connect c => simp only [step] at h; split at h <;> exact Or.inl h
  | disconnect c => exact Or.inl ((List.mem_filter.1 h).1)
  | postRegister c hd target t =>
    simp only [step] at h
    split at h
    · unfold request at h
      split at h
      · exact Or.inl (respond_postings h)
      · split at h
        · exact Or.inl h
        · rename_i hne
          split at h
          · rcases mem_insertPosting h with h | h
            · exact Or.inr (Or.inl ⟨c, hd, target, t, rfl, hne, h⟩)
            · exact Or.inl h
          · exact Or.inl h
    · exact Or.inl h
  | answerRegister c hd target t d =>
    simp only [step] at h
    split at h
    · exact Or.inl (respond_postings h)
    · exact Or.inl h
  | postOther c hd t =>
    simp only [step] at h
    split at h
    · rcases mem_insertPosting h with h | h
      · exact Or.inr (Or.inr (Or.inl ⟨c, hd, t, rfl, h⟩))
      · exact Or.inl h
    · exact Or.inl h
  | deregister c a b t =>
    simp only [step] at h
    split at h
    · unfold deregister at h
      split at h
      · exact Or.inl h
      · simp only at h
        generalize (if s.store.deadlocked = true then (s.store, Mutuals.Outcome.blocked)
          else Mutuals.deregister s.store a b) = r at h
        split at h
        · rcases mem_insertPosting h with h | h
          · exact Or.inr (Or.inr (Or.inr ⟨c, a, b, t, rfl, h⟩))
          · exact Or.inl h
        · exact Or.inl h
    · exact Or.inl h
  | deleteAccount c hd =>
    simp only [step] at h
    split at h
    · exact Or.inl ((List.mem_filter.1 h).1)
    · exact Or.inl h
  | expire o t => exact Or.inl ((List.mem_filter.1 h).1)

/-- Registration postings never address their owner. -/
theorem posting_ne (ops : List Op) (o t x : Nat) (h : ((o, t), Signal.register x) ∈ (after ops).postings) : o ≠ x := by
  induction ops using List.reverseRecOn with
  | nil => simp [after, run, init] at h
  | append_singleton ops op ih =>
    rw [after_snoc] at h
    rcases step_postings h with h | ⟨c, hd, target, t', -, hne, e⟩ | ⟨c, hd, t', -, e⟩ | ⟨c, a, b, t', -, e⟩
    · exact ih h
    · cases e; exact hne
    · cases e
    · cases e

/-- With honest headers a registration posting records a request of its owner. -/
theorem posting_asked (ops : List Op) (hh : ∀ op ∈ ops, HonestHeader op) (o t x : Nat)
    (h : ((o, t), Signal.register x) ∈ (after ops).postings) : .postRegister o o x t ∈ ops := by
  induction ops using List.reverseRecOn with
  | nil => simp [after, run, init] at h
  | append_singleton ops op ih =>
    rw [after_snoc] at h
    rcases step_postings h with h | ⟨c, hd, target, t', rfl, -, e⟩ | ⟨c, hd, t', -, e⟩ | ⟨c, a, b, t', -, e⟩
    · exact List.mem_append_left _ (ih (fun o ho => hh o (List.mem_append_left _ ho)) h)
    · have : hd = c := hh (.postRegister c hd target t') (List.mem_append_right _ (by simp))
      cases e
      subst this
      exact List.mem_append_right _ (by simp)
    · cases e
    · cases e

theorem respond_event {s : Server} {me target ticket : Nat} {d : Bool} {a b : Nat}
    (h : (respond s me target ticket d).2 = .registered a b) :
    s.postings.contains (target, ticket) = true ∧ d = false ∧ a = me ∧ b = target := by
  unfold respond at h
  split at h
  · rename_i hc
    simp only at h
    split at h
    · split at h
      · cases h
      · rename_i hd
        unfold doRegister at h
        simp only at h
        generalize (if s.store.deadlocked = true then (s.store, Mutuals.Outcome.blocked)
          else Mutuals.register s.store me target) = r at h
        split at h
        · cases h; exact ⟨hc, by simpa using hd, rfl, rfl⟩
        · cases h
    · cases h
  · cases h

theorem simultaneous_mem {s : Server} {me peer t : Nat} (h : simultaneousRegister s me peer = some t) :
    ((peer, t), Signal.register me) ∈ s.postings := by
  unfold simultaneousRegister at h
  rw [Option.map_eq_some_iff] at h
  obtain ⟨e, he, rfl⟩ := h
  have h1 := List.find?_some he
  have h2 := List.mem_of_find?_eq_some he
  simp only [Bool.and_eq_true, decide_eq_true_eq] at h1
  obtain ⟨⟨o, t⟩, sig⟩ := e
  simp only at h1
  obtain ⟨rfl, rfl⟩ := h1
  exact h2

/-- Which operations can register a pair. -/
theorem step_registered {s : Server} {op : Op} {a b : Nat} (h : (step s op).2 = .registered a b) :
    (∃ c t, op = .answerRegister c a b t false ∧ s.postings.contains (b, t) = true) ∨
    (∃ c t t', op = .postRegister c a b t' ∧ ((b, t), Signal.register a) ∈ s.postings) := by
  cases op with
  | newAccount c => simp only [step] at h; split at h <;> cases h
  | connect c => simp only [step] at h; split at h <;> cases h
  | disconnect c => cases h
  | postRegister c hd target t =>
    simp only [step] at h
    split at h
    · unfold request at h
      split at h
      · rename_i t0 hs
        obtain ⟨-, -, rfl, rfl⟩ := respond_event h
        exact Or.inr ⟨c, t0, t, rfl, simultaneous_mem hs⟩
      · split at h
        · cases h
        · split at h <;> cases h
    · cases h
  | answerRegister c hd target t d =>
    simp only [step] at h
    split at h
    · obtain ⟨h1, rfl, rfl, rfl⟩ := respond_event h
      exact Or.inl ⟨c, t, rfl, h1⟩
    · cases h
  | postOther c hd t => simp only [step] at h; split at h <;> cases h
  | deregister c x y t =>
    simp only [step] at h
    split at h
    · unfold deregister at h
      split at h
      · cases h
      · simp only at h
        generalize (if s.store.deadlocked = true then (s.store, Mutuals.Outcome.blocked)
          else Mutuals.deregister s.store x y) = r at h
        split at h <;> cases h
    · cases h
  | deleteAccount c hd =>
    simp only [step] at h
    split at h
    · unfold deleteAccount at h
      simp only at h
      generalize (if s.store.deadlocked = true then (s.store, Mutuals.Outcome.blocked)
        else Mutuals.delete s.store hd) = r at h
      split at h <;> cases h
    · cases h
  | expire o t => cases h

theorem register_dead {st : Mutuals.Store} {a b : Nat} (h : st.deadlocked = false) (hab : a ≠ b) :
    (Mutuals.register st a b).1.deadlocked = false := by
  unfold Mutuals.register
  split
  · exact h
  · exact h

theorem foldl_dead (c : Nat) (ps : List Nat) (s : Mutuals.Store) :
    (ps.foldl (Mutuals.delStep c) s).deadlocked = s.deadlocked := by
  induction ps generalizing s with
  | nil => rfl
  | cons p ps ih =>
    rw [List.foldl_cons, ih]
    unfold Mutuals.delStep
    split
    · exact Mutuals.removePeer_dead s p c
    · rfl

theorem delete_dead (st : Mutuals.Store) (c : Nat) : (Mutuals.delete st c).1.deadlocked = st.deadlocked := by
  rw [Mutuals.delete_eq]
  split
  · rfl
  · split
    · exact foldl_dead c _ _
    · rfl

theorem dereg_dead (st : Mutuals.Store) (a b : Nat) : (Mutuals.deregister st a b).1.deadlocked = st.deadlocked := by
  unfold Mutuals.deregister
  have h1 : (Mutuals.deregStart st a b).1.deadlocked = st.deadlocked := by
    unfold Mutuals.deregStart
    split
    · simp only
      split
      · exact Mutuals.removePeer_dead st a b
      · rfl
    · rfl
  simp only
  split
  · unfold Mutuals.deregFinish
    split
    · simp only; rw [Mutuals.removePeer_dead]; exact h1
    · exact h1
  · exact h1

theorem respond_dead {s : Server} {me target ticket : Nat} {d : Bool} (h : s.store.deadlocked = false)
    (hne : s.postings.contains (target, ticket) = true → me ≠ target) :
    (respond s me target ticket d).1.store.deadlocked = false := by
  unfold respond
  split
  · rename_i hc
    simp only
    split
    · split
      · exact h
      · unfold doRegister
        simp only [h, Bool.false_eq_true, if_false]
        exact register_dead h (hne hc)
    · exact h
  · exact h

theorem insertPosting_store (s : Server) (o t : Nat) (sig : Signal) : (insertPosting s o t sig).store = s.store := by
  unfold insertPosting; split <;> rfl

end Verif.PeerSignals

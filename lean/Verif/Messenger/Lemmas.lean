import Verif.Messenger.Spec
import Verif.Ordered.Props
namespace Verif.Messenger
open Verif

variable {T : Type}

/-- The messages with their numbers. -/
def numbered (l : List T) : List (Nat × T) := l.zipIdx.map Prod.swap

theorem mem_numbered {l : List T} {i : Nat} {m : T} : (i, m) ∈ numbered l ↔ l[i]? = some m := by
  unfold numbered
  constructor
  · intro h
    obtain ⟨⟨a, b⟩, h1, h2⟩ := List.mem_map.1 h
    simp only [Prod.swap, Prod.mk.injEq] at h2
    obtain ⟨rfl, rfl⟩ := h2
    exact List.mem_zipIdx_iff_getElem?.1 h1
  · intro h
    exact List.mem_map.2 ⟨(m, i), List.mem_zipIdx_iff_getElem?.2 h, rfl⟩

theorem numbered_append (l : List T) (m : T) : numbered (l ++ [m]) = numbered l ++ [(l.length, m)] := by
  simp [numbered, List.zipIdx_append]

theorem numbered_length (l : List T) : (numbered l).length = l.length := by simp [numbered]

theorem numbered_nodup (l : List T) : ((numbered l).map Prod.fst).Nodup := by
  have : (numbered l).map Prod.fst = List.range l.length := by
    simp only [numbered, List.map_map]
    have : Prod.fst ∘ Prod.swap = (Prod.snd : T × Nat → Nat) := rfl
    rw [this, List.zipIdx_map_snd, List.range_eq_range']
  rw [this]
  exact List.nodup_range

def handS : SendAt T → List (Nat × T)
  | .idle => []
  | .trigger m => [m]
  | .returned m => [m]

def handD : DrainAt T → List (Nat × T)
  | .trigger m => [m]
  | .returned m => [m]
  | _ => []

/-- Every message handed over is at one place. -/
structure Inv (s : Sys T) (lost : List (Nat × T)) : Prop where
  next : s.nextId = s.accepted.length
  chan : s.chan = Ordered.run Ordered.new s.arrived
  perm : (s.arrived ++ (s.wire ++ (s.queue ++ (handS s.sendAt ++ (handD s.drainAt ++ lost))))).Perm
    (numbered s.accepted)

theorem inv_new : Inv (Sys.new : Sys T) [] := ⟨rfl, rfl, List.Perm.refl _⟩

theorem run_snoc (c : Ordered.Chan T) (as : List (Nat × T)) (a : Nat × T) :
    Ordered.run c (as ++ [a]) = Ordered.onPacketReceived (Ordered.run c as) a.1 a.2 := by
  rw [Ordered.run_append]; rfl

/-- Rearranging without counting differently. -/
theorem perm_of (l l' r : List (Nat × T)) (h : l.Perm r)
    (hc : ∀ [BEq (Nat × T)] [LawfulBEq (Nat × T)] (a : Nat × T), l'.count a = l.count a) : l'.Perm r := by
  classical
  exact (List.perm_iff_count.2 fun a => hc a).trans h

theorem perm_of_snoc (l l' r : List (Nat × T)) (m : Nat × T) (h : l.Perm r)
    (hc : ∀ [BEq (Nat × T)] [LawfulBEq (Nat × T)] (a : Nat × T), l'.count a = l.count a + [m].count a) :
    l'.Perm (r ++ [m]) := by
  classical
  refine (List.perm_iff_count.2 fun a => ?_).trans (h.append_right [m])
  rw [hc, List.count_append]

theorem inv_step {mode : Mode} {s : Sys T} {lost : List (Nat × T)} (h : Inv s lost) (t : Step T) :
    ∃ lost', Inv (step mode s t) lost' ∧ lost ⊆ lost' ∧ (¬ Fails t → lost' = lost) := by
  obtain ⟨hn, hc, hp⟩ := h
  have keep : ∃ lost', Inv s lost' ∧ lost ⊆ lost' ∧ (¬ Fails t → lost' = lost) :=
    ⟨lost, ⟨hn, hc, hp⟩, fun _ h => h, fun _ => rfl⟩
  cases t with
  | call m =>
    simp only [step, call]
    split
    case h_2 => exact keep
    rename_i hs
    rw [hs] at hp
    refine ⟨lost, ⟨by simp [hn], hc, ?_⟩, fun _ h => h, fun _ => rfl⟩
    rw [numbered_append, ← hn]
    refine perm_of_snoc _ _ _ _ hp ?_
    intro _ _ a
    simp only [handS, List.count_append, List.count_nil]
    omega
  | sendTrigger o =>
    simp only [step, sendTrigger]
    split
    case h_2 => exact keep
    rename_i m hs
    rw [hs] at hp
    cases o with
    | sent =>
      refine ⟨lost, ⟨hn, hc, perm_of _ _ _ hp ?_⟩, fun _ h => h, fun _ => rfl⟩
      intro _ _ a
      simp only [handS, List.count_append, List.count_nil]
      omega
    | returned => exact ⟨lost, ⟨hn, hc, hp⟩, fun _ h => h, fun _ => rfl⟩
    | failed =>
      refine ⟨[m] ++ lost, ⟨hn, hc, perm_of _ _ _ hp ?_⟩, fun _ h => List.mem_append_right _ h,
        fun h => absurd trivial h⟩
      intro _ _ a
      simp only [handS, List.count_append, List.count_nil]
      omega
  | sendEnd =>
    simp only [step, sendEnd]
    split
    case h_2 => exact keep
    rename_i m hs
    rw [hs] at hp
    cases mode <;> refine ⟨lost, ⟨hn, hc, perm_of _ _ _ hp ?_⟩, fun _ h => h, fun _ => rfl⟩ <;>
    · intro _ _ a
      simp only [handS, List.count_append, List.count_nil]
      omega
  | rekeyEnd => exact ⟨lost, ⟨hn, hc, hp⟩, fun _ h => h, fun _ => rfl⟩
  | wake =>
    simp only [step, wake]
    split
    case h_2 => exact keep
    rename_i hs
    split
    · exact keep
    · rw [hs] at hp
      exact ⟨lost, ⟨hn, hc, hp⟩, fun _ h => h, fun _ => rfl⟩
  | pop =>
    simp only [step, pop]
    split
    case h_2 => exact keep
    rename_i hs
    rw [hs] at hp
    split
    · exact ⟨lost, ⟨hn, hc, hp⟩, fun _ h => h, fun _ => rfl⟩
    · rename_i m q hq
      rw [hq] at hp
      refine ⟨lost, ⟨hn, hc, perm_of _ _ _ hp ?_⟩, fun _ h => h, fun _ => rfl⟩
      intro _ _ a
      simp only [handD, List.count_append, List.count_nil, List.count_cons]
      omega
  | drainTrigger o =>
    simp only [step, drainTrigger]
    split
    case h_2 => exact keep
    rename_i m hs
    rw [hs] at hp
    cases o with
    | sent =>
      refine ⟨lost, ⟨hn, hc, perm_of _ _ _ hp ?_⟩, fun _ h => h, fun _ => rfl⟩
      intro _ _ a
      simp only [handD, List.count_append, List.count_nil]
      omega
    | returned => exact ⟨lost, ⟨hn, hc, hp⟩, fun _ h => h, fun _ => rfl⟩
    | failed =>
      refine ⟨[m] ++ lost, ⟨hn, hc, perm_of _ _ _ hp ?_⟩, fun _ h => List.mem_append_right _ h,
        fun h => absurd trivial h⟩
      intro _ _ a
      simp only [handD, List.count_append, List.count_nil]
      omega
  | putBack =>
    simp only [step, putBack]
    split
    case h_2 => exact keep
    rename_i m hs
    rw [hs] at hp
    refine ⟨lost, ⟨hn, hc, perm_of _ _ _ hp ?_⟩, fun _ h => h, fun _ => rfl⟩
    intro _ _ a
    simp only [handD, List.count_append, List.count_nil, List.count_cons]
    omega
  | arrive k =>
    simp only [step, arrive]
    split
    · exact keep
    · rename_i m hk
      refine ⟨lost, ⟨hn, ?_, perm_of _ _ _ hp ?_⟩, fun _ h => h, fun _ => rfl⟩
      · show Ordered.onPacketReceived s.chan m.1 m.2 = _
        rw [run_snoc, hc]
      · intro _ _ a
        obtain ⟨hl, hm⟩ := List.getElem?_eq_some_iff.1 hk
        have h1 : s.wire.count a = [m].count a + (s.wire.eraseIdx k).count a := by
          rw [List.eraseIdx_eq_take_drop_succ, ← hm]
          conv => lhs; rw [← List.take_append_drop k s.wire, List.drop_eq_getElem_cons hl]
          simp only [List.count_append, List.count_cons, List.count_nil]
          omega
        simp only [List.count_append]
        omega

theorem inv_run {mode : Mode} (ts : List (Step T)) : ∀ {s : Sys T} {lost : List (Nat × T)}, Inv s lost →
    ∃ lost', Inv (run mode s ts) lost' ∧ lost ⊆ lost' ∧ ((∀ t ∈ ts, ¬ Fails t) → lost' = lost) := by
  induction ts with
  | nil => intro s lost h; exact ⟨lost, h, fun _ h => h, fun _ => rfl⟩
  | cons t ts ih =>
    intro s lost h
    obtain ⟨l1, h1, h2, h3⟩ := inv_step (mode := mode) h t
    obtain ⟨l2, h4, h5, h6⟩ := ih h1
    refine ⟨l2, h4, fun _ h => h5 (h2 h), fun hf => ?_⟩
    rw [h6 fun t ht => hf t (List.mem_cons_of_mem _ ht), h3 (hf t List.mem_cons_self)]

theorem handed_run {mode : Mode} (ts : List (Step T)) : ∀ s : Sys T,
    (run mode s ts).accepted = s.accepted ++ handed mode s ts := by
  induction ts with
  | nil => intro s; simp [run, handed]
  | cons t ts ih =>
    intro s
    show (run mode (step mode s t) ts).accepted = _
    rw [ih]
    simp only [handed]
    rw [← List.append_assoc]
    congr 1
    cases t with
    | call m => simp only [step, call]; cases s.sendAt <;> simp
    | sendTrigger o => simp only [step, sendTrigger]; cases s.sendAt <;> cases o <;> simp
    | sendEnd => simp only [step, sendEnd]; cases s.sendAt <;> cases mode <;> simp
    | rekeyEnd => simp [step]
    | wake => simp only [step, wake]; cases s.drainAt <;> simp; split <;> simp
    | pop => simp only [step, pop]; cases s.drainAt <;> simp; cases s.queue <;> simp
    | drainTrigger o => simp only [step, drainTrigger]; cases s.drainAt <;> cases o <;> simp
    | putBack => simp only [step, putBack]; cases s.drainAt <;> simp
    | arrive k => simp only [step, arrive]; cases s.wire[k]? <;> simp

theorem run_append {mode : Mode} (ts us : List (Step T)) : ∀ s : Sys T,
    run mode s (ts ++ us) = run mode (run mode s ts) us := by
  induction ts with
  | nil => intro s; rfl
  | cons t ts ih => intro s; exact ih _

/-- One thread is a case of several. -/
theorem coop_run (mode : Mode) (t : Step T) : ∃ us, ∀ s : Sys T, coop mode s t = run mode s us := by
  cases t with
  | sendTrigger o =>
    cases mode with
    | perfect => exact ⟨[.sendTrigger o, .sendEnd], fun s => rfl⟩
    | bestEffort => exact ⟨[.sendTrigger o], fun s => rfl⟩
  | wake => exact ⟨[.wake, .pop], fun s => rfl⟩
  | drainTrigger o => exact ⟨[.drainTrigger o, .putBack, .pop], fun s => rfl⟩
  | call m => exact ⟨[.call m], fun s => rfl⟩
  | sendEnd => exact ⟨[.sendEnd], fun s => rfl⟩
  | rekeyEnd => exact ⟨[.rekeyEnd], fun s => rfl⟩
  | pop => exact ⟨[.pop], fun s => rfl⟩
  | putBack => exact ⟨[.putBack], fun s => rfl⟩
  | arrive k => exact ⟨[.arrive k], fun s => rfl⟩

/-- With one thread: between steps neither task holds a returned message or is about to look at the queue, and a
non-empty queue will be looked at. -/
structure Coop (mode : Mode) (s : Sys T) : Prop where
  drain : s.drainAt = .idle ∨ ∃ m, s.drainAt = .trigger m
  send : mode = .perfect → ∀ m, s.sendAt ≠ .returned m
  queue : s.queue ≠ [] → s.events ≠ 0 ∨ s.drainAt ≠ .idle

theorem coop_new (mode : Mode) : Coop mode (Sys.new : Sys T) :=
  ⟨Or.inl rfl, fun _ m h => (by cases h), fun h => absurd rfl h⟩

/-- In best-effort mode nothing is put into the queue. -/
theorem coop_step {mode : Mode} {s : Sys T} (h : Coop mode s) (hq : mode = .bestEffort → s.queue = [] ∧ s.drainAt = .idle)
    (t : Step T) (hf : ¬ Fails t) : Coop mode (coop mode s t) ∧
      (mode = .bestEffort → (coop mode s t).queue = [] ∧ (coop mode s t).drainAt = .idle) := by
  have same : ∀ s', s' = s → Coop mode s' ∧ (mode = .bestEffort → s'.queue = [] ∧ s'.drainAt = .idle) :=
    fun s' e => e ▸ ⟨h, hq⟩
  obtain ⟨hd, hs, hw⟩ := h
  cases t with
  | call m =>
    simp only [coop, step, call]
    split
    · exact ⟨⟨hd, fun _ m h => (by cases h), hw⟩, hq⟩
    · exact ⟨⟨hd, hs, hw⟩, hq⟩
  | sendTrigger o =>
    cases mode with
    | perfect =>
      simp only [coop, sendTrigger]
      split
      · rename_i m hm
        cases o with
        | sent => exact ⟨⟨hd, fun _ m h => (by cases h), hw⟩, fun h => (by cases h)⟩
        | returned => exact ⟨⟨hd, fun _ m h => (by cases h), fun _ => Or.inl (Nat.succ_ne_zero _)⟩, fun h => (by cases h)⟩
        | failed => exact ⟨⟨hd, fun _ m h => (by cases h), hw⟩, fun h => (by cases h)⟩
      · simp only [sendEnd]
        split
        · rename_i m hm
          exact absurd hm (hs rfl m)
        · exact ⟨⟨hd, hs, hw⟩, hq⟩
    | bestEffort =>
      simp only [coop, sendTrigger]
      split
      · cases o with
        | sent => exact ⟨⟨hd, fun h => (by cases h), hw⟩, fun _ => hq rfl⟩
        | returned => exact ⟨⟨hd, fun h => (by cases h), fun _ => Or.inl (Nat.succ_ne_zero _)⟩, fun _ => hq rfl⟩
        | failed => exact ⟨⟨hd, fun h => (by cases h), hw⟩, fun _ => hq rfl⟩
      · exact ⟨⟨hd, hs, hw⟩, fun _ => hq rfl⟩
  | sendEnd =>
    simp only [coop, step, sendEnd]
    split
    · rename_i m hm
      cases mode with
      | perfect => exact absurd hm (hs rfl m)
      | bestEffort => exact ⟨⟨hd, fun h => (by cases h), hw⟩, hq⟩
    · exact ⟨⟨hd, hs, hw⟩, hq⟩
  | rekeyEnd => exact ⟨⟨hd, hs, fun _ => Or.inl (Nat.succ_ne_zero _)⟩, hq⟩
  | wake =>
    rcases hd with hd | ⟨m, hm⟩
    · by_cases he : s.events = 0
      · exact same _ (by simp [coop, wake, pop, hd, he])
      · simp only [coop, wake, hd, he, if_false, pop]
        split
        · rename_i hqe
          exact ⟨⟨Or.inl rfl, hs, fun h => absurd hqe h⟩, fun h => ⟨hqe, rfl⟩⟩
        · rename_i m q hqe
          refine ⟨⟨Or.inr ⟨m, rfl⟩, hs, fun _ => Or.inr (by simp)⟩, fun h => ?_⟩
          have := (hq h).1
          rw [hqe] at this
          cases this
    · exact same _ (by simp [coop, wake, pop, hm])
  | pop =>
    rcases hd with hd | ⟨m, hm⟩
    · exact same _ (by simp [coop, step, pop, hd])
    · exact same _ (by simp [coop, step, pop, hm])
  | drainTrigger o =>
    rcases hd with hd | ⟨m, hm⟩
    · exact same _ (by simp [coop, drainTrigger, putBack, pop, hd])
    · have hne : mode = .perfect := by
        cases mode with
        | perfect => rfl
        | bestEffort => rw [(hq rfl).2] at hm; cases hm
      subst hne
      refine ⟨?_, fun h => (by cases h)⟩
      cases o with
      | sent =>
        simp only [coop, drainTrigger, hm, putBack, pop]
        split
        · rename_i hqe; exact ⟨Or.inl rfl, hs, fun h => absurd hqe h⟩
        · rename_i m' q hqe; exact ⟨Or.inr ⟨m', rfl⟩, hs, fun _ => Or.inr (by simp)⟩
      | returned =>
        simp only [coop, drainTrigger, hm, putBack, pop]
        exact ⟨Or.inl rfl, hs, fun _ => Or.inl (Nat.succ_ne_zero _)⟩
      | failed => exact absurd trivial hf
  | putBack =>
    rcases hd with hd | ⟨m, hm⟩
    · exact same _ (by simp [coop, step, putBack, hd])
    · exact same _ (by simp [coop, step, putBack, hm])
  | arrive k =>
    simp only [coop, step, arrive]
    split
    · exact ⟨⟨hd, hs, hw⟩, hq⟩
    · exact ⟨⟨hd, hs, hw⟩, hq⟩

theorem coop_runCoop {mode : Mode} (ts : List (Step T)) (hf : ∀ t ∈ ts, ¬ Fails t) : ∀ s : Sys T, Coop mode s →
    (mode = .bestEffort → s.queue = [] ∧ s.drainAt = .idle) → Coop mode (runCoop mode s ts) := by
  induction ts with
  | nil => intro s h _; exact h
  | cons t ts ih =>
    intro s h hq
    obtain ⟨h1, h2⟩ := coop_step h hq t (hf t List.mem_cons_self)
    exact ih (fun t ht => hf t (List.mem_cons_of_mem _ ht)) _ h1 h2

end Verif.Messenger

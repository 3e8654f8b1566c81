import Verif.Replay.Spec
import Mathlib.Data.List.Perm.Subperm
import Mathlib.Data.List.Range

/-! Helper lemmas about the anti-replay container. -/
namespace Verif.Replay

attribute [local irreducible] historyLen u64Max

/-- ids accepted since the last reset, read off the observed events (oldest first), newest first. -/
def acceptedSince : List Nat → List Event → List Nat
  | acc, [] => acc
  | acc, .accepted p :: es => acceptedSince (p :: acc) es
  | _, .reset :: es => acceptedSince [] es
  | acc, .rejected _ :: es => acceptedSince acc es
  | acc, .issued _ :: es => acceptedSince acc es

theorem historyLen_pos : 1 ≤ historyLen := by unfold historyLen; decide

theorem step_recv (c : Container) (p : Nat) : step c (.recv p) =
    ((onPidReceived c p).1,
      if (onPidReceived c p).2 then Event.accepted p else Event.rejected p) := by
  rfl

theorem mem_foldl_filter (l : List Nat) (s : List Nat) (p : Nat) :
    p ∈ l.foldl (fun s stale => s.filter (fun p => p != stale)) s ↔ p ∈ s ∧ p ∉ l := by
  induction l generalizing s with
  | nil => simp
  | cons a l ih =>
    simp only [List.foldl_cons, ih, List.mem_filter, List.mem_cons, bne_iff_ne, ne_eq, not_or]
    tauto

theorem nodup_foldl_filter (l : List Nat) (s : List Nat) (h : s.Nodup) :
    (l.foldl (fun s stale => s.filter (fun p => p != stale)) s).Nodup := by
  induction l generalizing s with
  | nil => simpa
  | cons a l ih => exact ih _ (h.filter _)

theorem mem_removeRange (s : List Nat) (lo hi p : Nat) :
    p ∈ removeRange s lo hi ↔ p ∈ s ∧ ¬ (lo ≤ p ∧ p < hi) := by
  unfold removeRange
  rw [mem_foldl_filter, List.mem_range'_1]
  constructor
  · rintro ⟨h, h'⟩; exact ⟨h, fun ⟨a, b⟩ => h' ⟨a, by omega⟩⟩
  · rintro ⟨h, h'⟩; exact ⟨h, fun ⟨a, b⟩ => h' ⟨a, by omega⟩⟩

/-- The invariant tying the container to the list of ids accepted since the last reset. -/
structure Inv (c : Container) (acc : List Nat) : Prop where
  nodupAcc : acc.Nodup
  nodupSeen : c.seen.Nodup
  hwUpper : ∀ q ∈ acc, satSucc q ≤ c.highWater
  hwAttained : c.highWater = 0 ∨ ∃ q ∈ acc, c.highWater = satSucc q
  seenIff : ∀ p, p ∈ c.seen ↔ p ∈ acc ∧ c.highWater - historyLen ≤ p

theorem inv_init (n : Nat) : Inv { init with counterOut := n } [] := by
  constructor <;> simp [init]

theorem inv_accept {c acc} (h : Inv c acc) (p : Nat)
    (h1 : c.highWater - historyLen ≤ p) (h2 : p ∉ c.seen) :
    Inv (onPidReceived c p).1 (p :: acc) ∧ (onPidReceived c p).2 = true := by
  have hp : p ∉ acc := fun hm => h2 ((h.seenIff p).2 ⟨hm, h1⟩)
  have hlt : ¬ p < c.highWater - historyLen := by omega
  unfold onPidReceived
  simp only [hlt, if_false, h2]
  refine ⟨?_, trivial⟩
  refine ⟨List.nodup_cons.2 ⟨hp, h.nodupAcc⟩, ?_, ?_, ?_, ?_⟩
  · have hn : (p :: c.seen).Nodup := List.nodup_cons.2 ⟨h2, h.nodupSeen⟩
    dsimp only
    split
    · split
      · exact hn.filter _
      · exact nodup_foldl_filter _ _ hn
    · exact hn
  · intro q hq
    rcases List.mem_cons.1 hq with rfl | hq
    · exact Nat.le_max_right ..
    · exact Nat.le_trans (h.hwUpper q hq) (Nat.le_max_left ..)
  · rcases Nat.le_total c.highWater (satSucc p) with hle | hle
    · exact Or.inr ⟨p, by simp, Nat.max_eq_right hle⟩
    · rcases h.hwAttained with h0 | ⟨q, hq, he⟩
      · right
        refine ⟨p, by simp, ?_⟩
        show max c.highWater (satSucc p) = satSucc p
        omega
      · right
        refine ⟨q, List.mem_cons_of_mem _ hq, ?_⟩
        show max c.highWater (satSucc p) = satSucc q
        omega
  · intro r
    have hs := h.seenIff r
    have hM : c.highWater ≤ max c.highWater (satSucc p) := Nat.le_max_left ..
    dsimp only
    by_cases hr : r = p
    · subst hr
      have key : r ∈ (if max c.highWater (satSucc r) - historyLen > c.highWater - historyLen then
          if max c.highWater (satSucc r) - historyLen - (c.highWater - historyLen) ≥ historyLen then
            List.filter (fun p => decide (p ≥ max c.highWater (satSucc r) - historyLen)) (r :: c.seen)
          else removeRange (r :: c.seen) (c.highWater - historyLen) (max c.highWater (satSucc r) - historyLen)
        else r :: c.seen) := by
        have : max c.highWater (satSucc r) - historyLen ≤ r := by
          have : satSucc r ≤ r + 1 := by unfold satSucc; omega
          have := historyLen_pos; omega
        split
        · split
          · simp only [List.mem_filter, List.mem_cons, true_or, decide_eq_true_eq, true_and]; omega
          · rw [mem_removeRange]; simp only [List.mem_cons, true_or, true_and]; omega
        · simp
      have h3 : max c.highWater (satSucc r) - historyLen ≤ r := by
        have : satSucc r ≤ r + 1 := by unfold satSucc; omega
        have := historyLen_pos; omega
      simp only [key, List.mem_cons, true_or, true_and, h3]
    · have e1 : r ∈ p :: c.seen ↔ r ∈ c.seen := by simp [hr]
      have e2 : r ∈ p :: acc ↔ r ∈ acc := by simp [hr]
      rw [e2]
      split
      · split
        · simp only [List.mem_filter, e1, hs, decide_eq_true_eq]
          constructor
          · rintro ⟨⟨a, b⟩, d⟩; exact ⟨a, d⟩
          · rintro ⟨a, d⟩; exact ⟨⟨a, by omega⟩, d⟩
        · rw [mem_removeRange, e1, hs]
          constructor
          · rintro ⟨⟨a, b⟩, d⟩; exact ⟨a, by omega⟩
          · rintro ⟨a, d⟩; exact ⟨⟨a, by omega⟩, by omega⟩
      · rw [e1, hs]
        constructor
        · rintro ⟨a, b⟩; exact ⟨a, by omega⟩
        · rintro ⟨a, b⟩; exact ⟨a, by omega⟩

theorem reject {c : Container} (p : Nat)
    (h : p < c.highWater - historyLen ∨ p ∈ c.seen) : onPidReceived c p = (c, false) := by
  unfold onPidReceived
  rcases h with h | h
  · simp [h]
  · by_cases h' : p < c.highWater - historyLen <;> simp [h', h]

theorem onPid_true_iff {c acc} (h : Inv c acc) (p : Nat) :
    (onPidReceived c p).2 = true ↔ p ∉ acc ∧ c.highWater - historyLen ≤ p := by
  by_cases h1 : p < c.highWater - historyLen
  · rw [reject p (Or.inl h1)]; simp; omega
  · by_cases h2 : p ∈ c.seen
    · rw [reject p (Or.inr h2)]; simp [((h.seenIff p).1 h2).1]
    · rw [(inv_accept h p (by omega) h2).2]
      simp only [true_iff]
      exact ⟨fun hm => h2 ((h.seenIff p).2 ⟨hm, by omega⟩), by omega⟩

theorem inv_counter {c acc} (h : Inv c acc) (n : Nat) : Inv { c with counterOut := n } acc :=
  ⟨h.1, h.2, h.3, h.4, h.5⟩

theorem inv_step {c acc} (h : Inv c acc) (op : Op) :
    Inv (step c op).1 (acceptedSince acc [(step c op).2]) := by
  cases op with
  | recv p =>
    by_cases hr : p < c.highWater - historyLen ∨ p ∈ c.seen
    · rw [step_recv, reject p hr]; exact h
    · have hr' : c.highWater - historyLen ≤ p ∧ p ∉ c.seen := by
        constructor
        · by_contra hc; exact hr (Or.inl (by omega))
        · exact fun hc => hr (Or.inr hc)
      obtain ⟨ha, hb⟩ := inv_accept h p hr'.1 hr'.2
      rw [step_recv, hb]; exact ha
  | next => exact inv_counter h _
  | reset => exact inv_init 0

theorem acceptedSince_append (acc : List Nat) (a b : List Event) :
    acceptedSince acc (a ++ b) = acceptedSince (acceptedSince acc a) b := by
  induction a generalizing acc with
  | nil => rfl
  | cons e a ih => cases e <;> simp [acceptedSince, ih]

theorem inv_run {c acc} (h : Inv c acc) (ops : List Op) :
    Inv (run c ops).1 (acceptedSince acc (run c ops).2) := by
  induction ops generalizing c acc with
  | nil => exact h
  | cons op ops ih =>
    have := ih (inv_step h op)
    simp only [run]
    have e : (step c op).2 :: (run (step c op).1 ops).2 =
        [(step c op).2] ++ (run (step c op).1 ops).2 := rfl
    rw [e, acceptedSince_append]
    exact this

theorem run_append (c : Container) (a b : List Op) :
    run c (a ++ b) = ((run (run c a).1 b).1, (run c a).2 ++ (run (run c a).1 b).2) := by
  induction a generalizing c with
  | nil => simp [run]
  | cons op a ih => simp [run, ih]

theorem run_length (c : Container) (ops : List Op) : (run c ops).2.length = ops.length := by
  induction ops generalizing c with
  | nil => rfl
  | cons op ops ih => simp [run, ih]

theorem mem_acceptedSince_of_mem {acc : List Nat} {es : List Event} {p : Nat}
    (hres : Event.reset ∉ es) (h : p ∈ acc ∨ Event.accepted p ∈ es) : p ∈ acceptedSince acc es := by
  induction es generalizing acc with
  | nil => rcases h with h | h
           · exact h
           · cases h
  | cons e es ih =>
    have hres' : Event.reset ∉ es := fun hm => hres (List.mem_cons_of_mem _ hm)
    cases e with
    | accepted q =>
      apply ih hres'
      rcases h with h | h
      · exact Or.inl (List.mem_cons_of_mem _ h)
      · rcases List.mem_cons.1 h with h | h
        · cases h; exact Or.inl (List.mem_cons_self ..)
        · exact Or.inr h
    | rejected q => 
      apply ih hres'
      rcases h with h | h
      · exact Or.inl h
      · rcases List.mem_cons.1 h with h | h
        · cases h
        · exact Or.inr h
    | issued q => 
      apply ih hres'
      rcases h with h | h
      · exact Or.inl h
      · rcases List.mem_cons.1 h with h | h
        · cases h
        · exact Or.inr h
    | reset => exact absurd (List.mem_cons_self ..) hres


theorem acceptedSince_subset {acc : List Nat} {es : List Event} {p : Nat}
    (h : p ∈ acceptedSince acc es) : p ∈ acc ∨ Event.accepted p ∈ es := by
  induction es generalizing acc with
  | nil => exact Or.inl h
  | cons e es ih =>
    cases e with
    | accepted q =>
      rcases ih h with h | h
      · rcases List.mem_cons.1 h with rfl | h
        · exact Or.inr (List.mem_cons_self ..)
        · exact Or.inl h
      · exact Or.inr (List.mem_cons_of_mem _ h)
    | rejected q => exact (ih h).imp_right (List.mem_cons_of_mem _)
    | issued q => exact (ih h).imp_right (List.mem_cons_of_mem _)
    | reset => 
      rcases ih h with h | h
      · cases h
      · exact Or.inr (List.mem_cons_of_mem _ h)

/-- every step of a run is a step from the state reached by the preceding calls -/
theorem run_split {c : Container} {ops : List Op} {a b : List Event} {e : Event}
    (h : (run c ops).2 = a ++ e :: b) :
    ∃ opsA op opsB, ops = opsA ++ op :: opsB ∧ (run c opsA).2 = a ∧
      (step (run c opsA).1 op).2 = e := by
  induction a generalizing c ops with
  | nil =>
    cases ops with
    | nil => simp [run] at h
    | cons op ops =>
      simp only [run, List.nil_append, List.cons.injEq] at h
      exact ⟨[], op, ops, rfl, rfl, h.1⟩
  | cons x a ih =>
    cases ops with
    | nil => simp [run] at h
    | cons op ops =>
      simp only [run, List.cons_append, List.cons.injEq] at h
      obtain ⟨oa, o, ob, h1, h2, h3⟩ := ih h.2
      refine ⟨op :: oa, o, ob, by simp [h1], ?_, ?_⟩
      · simp [run, h2, h.1]
      · simpa [run] using h3

theorem step_accepted {c : Container} {op : Op} {p : Nat}
    (h : (step c op).2 = Event.accepted p) :
    op = .recv p ∧ (onPidReceived c p).2 = true := by
  cases op with
  | recv q =>
    rw [step_recv] at h
    by_cases hb : (onPidReceived c q).2 = true
    · simp [hb] at h; subst h; exact ⟨rfl, hb⟩
    · simp [hb] at h
  | next => simp [step] at h
  | reset => simp [step] at h

theorem nodup_length_le_of_range {l : List Nat} (h : l.Nodup) {lo n : Nat}
    (hr : ∀ p ∈ l, lo ≤ p ∧ p < lo + n) : l.length ≤ n := by
  have hs : l ⊆ List.range' lo n := fun p hp => List.mem_range'_1.2 (hr p hp)
  have := (h.subperm hs).length_le
  simpa using this

theorem mem_acceptedSince_iff {es : List Event} {p : Nat} :
    p ∈ acceptedSince [] es ↔ AcceptedSinceReset es p := by
  constructor
  · intro h
    induction es using List.reverseRecOn generalizing p with
    | nil => simp [acceptedSince] at h
    | append_singleton es e ih =>
      rw [acceptedSince_append] at h
      cases e with
      | accepted q =>
        simp only [acceptedSince, List.mem_cons] at h
        rcases h with rfl | h
        · exact ⟨es, [], rfl, by simp⟩
        · obtain ⟨a, b, rfl, hb⟩ := ih h
          exact ⟨a, b ++ [.accepted q], by simp, by simp [hb]⟩
      | rejected q =>
        obtain ⟨a, b, rfl, hb⟩ := ih h
        exact ⟨a, b ++ [.rejected q], by simp, by simp [hb]⟩
      | issued q =>
        obtain ⟨a, b, rfl, hb⟩ := ih h
        exact ⟨a, b ++ [.issued q], by simp, by simp [hb]⟩
      | reset => simp [acceptedSince] at h
  · rintro ⟨a, b, rfl, hb⟩
    rw [acceptedSince_append]
    exact mem_acceptedSince_of_mem (acc := .cons p (acceptedSince [] a)) hb
      (Or.inl (List.mem_cons_self ..))

theorem recv_all_accepted (l done : List Nat) (c : Container) (hinv : Inv c done)
    (hnd : (done.reverse ++ l).Nodup)
    (hwin : (done.reverse ++ l).Pairwise (fun earlier later => earlier ≤ later + 1023)) :
    (run c (l.map Op.recv)).2 = l.map Event.accepted := by
  induction l generalizing done c with
  | nil => rfl
  | cons p l ih =>
    have hH : historyLen = 1024 := by unfold historyLen; rfl
    have hp : p ∉ done := by
      intro hm
      have := (List.nodup_append.1 hnd).2.2 p (List.mem_reverse.2 hm) p (List.mem_cons_self ..)
      exact this rfl
    have hfl : c.highWater - historyLen ≤ p := by
      rcases hinv.hwAttained with h0 | ⟨q, hq, he⟩
      · omega
      · have := (List.pairwise_append.1 hwin).2.2 q (List.mem_reverse.2 hq) p (List.mem_cons_self ..)
        have hs : satSucc q ≤ q + 1 := by unfold satSucc; omega
        omega
    have hseen : p ∉ c.seen := fun hm => hp ((hinv.seenIff p).1 hm).1
    obtain ⟨hi', ht⟩ := inv_accept hinv p hfl hseen
    have hl : done.reverse ++ p :: l = (p :: done).reverse ++ l := by simp
    simp only [List.map_cons, run, step_recv, ht, if_true]
    rw [ih (p :: done) _ hi' (by rw [← hl]; exact hnd) (by rw [← hl]; exact hwin)]

end Verif.Replay

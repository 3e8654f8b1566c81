import Verif.CallChan.Model
/-!
# Invariants of the two channels
-/
namespace Verif.CallChan

/-- The payload with which the call number `i` was made, when the next number is `n`. -/
def payloadOf (i : Nat) : Nat → List Act → Option Nat
  | _, [] => none
  | n, .send x :: as => if n = i then some x else payloadOf i (n + 1) as
  | n, .resume _ :: as => payloadOf i n as
  | n, .cancel _ :: as => payloadOf i n as
  | n, .sendNo _ :: as => payloadOf i n as
  | n, .recv :: as => payloadOf i n as
  | n, .reply _ _ :: as => payloadOf i n as
  | n, .discard _ :: as => payloadOf i n as
  | n, .dropRx :: as => payloadOf i n as

theorem set_same (f : Nat → Status) (i : Nat) (v : Status) : set f i v i = v := by simp [set]
theorem set_ne (f : Nat → Status) {i j : Nat} (v : Status) (h : j ≠ i) : set f i v j = f j := by
  simp [set, h]

def num (l : List (Nat × Nat)) (i : Nat) : Nat := (l.map (·.1)).count i

theorem num_nil (i : Nat) : num [] i = 0 := rfl
theorem num_cons (p : Nat × Nat) (l : List (Nat × Nat)) (i : Nat) :
    num (p :: l) i = num l i + if p.1 = i then 1 else 0 := by
  simp [num, List.count_cons]
theorem num_append (l m : List (Nat × Nat)) (i : Nat) : num (l ++ m) i = num l i + num m i := by
  simp [num, List.count_append]
theorem num_pos {l : List (Nat × Nat)} {i : Nat} : 0 < num l i ↔ ∃ x, (i, x) ∈ l := by
  simp [num, List.count_pos_iff]
theorem num_erase (p : Nat × Nat) (l : List (Nat × Nat)) (i : Nat) :
    num (l.erase p) i = num l i - if p ∈ l ∧ p.1 = i then 1 else 0 := by
  induction l with
  | nil => simp [num]
  | cons q l ih =>
      by_cases hq : q = p
      · subst hq
        rw [List.erase_cons_head, num_cons]
        by_cases h : q.1 = i <;> simp [h]
      · rw [List.erase_cons_tail (by simpa using hq), num_cons, num_cons, ih]
        by_cases hm : p ∈ l
        · have : p.1 = i → 0 < num l i := fun h => num_pos.2 ⟨p.2, by rw [← h]; exact hm⟩
          by_cases h : p.1 = i
          · have := this h
            simp only [hm, h, List.mem_cons, or_true, and_self, if_true]
            omega
          · simp [h]
        · have : ¬ (p ∈ q :: l) := by
            simp only [List.mem_cons, not_or]; exact ⟨fun h => hq h.symm, hm⟩
          simp [hm, this]

/-- Facts of both channels. `P` is the payload of each call. -/
structure Good (s : St) (P : Nat → Option Nat) : Prop where
  pos : 1 ≤ s.next
  unused : ∀ i, s.next ≤ i → s.status i = .unused
  zero : s.status 0 = .unused
  payload : ∀ p, p ∈ s.queue ∨ p ∈ s.held → p.1 ≠ 0 → P p.1 = some p.2
  blocked : ∀ i x, s.status i = .blocked x → P i = some x
  none : ∀ i x, (s.status i = .unused ∨ s.status i = .errSend ∨ s.status i = .blocked x) → i ≠ 0 →
    num s.queue i + num s.held i = 0
  once : ∀ i, i ≠ 0 → num s.queue i + num s.held i ≤ 1
  dead : s.rx = false → s.queue = []

theorem good_init (cap : Nat) (P : Nat → Option Nat) : Good (St.init cap) P :=
  ⟨by simp [St.init], by simp [St.init], by simp [St.init], by simp [St.init], by simp [St.init],
   by simp [St.init, num], by simp [St.init, num], by simp [St.init]⟩

theorem good_congr {s t : St} {P : Nat → Option Nat} (h : Good s P) (h1 : t.next = s.next)
    (h2 : t.queue = s.queue) (h3 : t.held = s.held) (h4 : t.rx = s.rx) (h5 : t.status = s.status) :
    Good t P := by
  obtain ⟨a, b, c, d, e, f, g, i⟩ := h
  exact ⟨by rw [h1]; exact a, by rw [h1, h5]; exact b, by rw [h5]; exact c,
    by rw [h2, h3]; exact d, by rw [h5]; exact e, by rw [h2, h3, h5]; exact f,
    by rw [h2, h3]; exact g, by rw [h2, h4]; exact i⟩

/-- A change of the state of one call that was waiting. -/
theorem good_set {s : St} {P : Nat → Option Nat} (h : Good s P) (i : Nat) (v : Status)
    (hi : s.status i ≠ .unused)
    (hv : v ≠ .unused ∧ v ≠ .errSend ∧ ∀ x, v ≠ .blocked x) :
    Good { s with status := set s.status i v } P := by
  obtain ⟨a, b, c, d, e, f, g, k⟩ := h
  refine ⟨a, ?_, ?_, d, ?_, ?_, g, k⟩
  · intro j hj
    simp only at hj ⊢
    have := b j hj
    rw [set_ne _ _ (by rintro rfl; exact hi this)]
    exact this
  · simp only
    rw [set_ne _ _ (by rintro rfl; exact hi c)]
    exact c
  · intro j x hj
    simp only at hj
    by_cases hji : j = i
    · subst hji; rw [set_same] at hj; exact absurd hj (hv.2.2 x)
    · rw [set_ne _ _ hji] at hj; exact e j x hj
  · intro j x hj h0
    simp only at hj ⊢
    by_cases hji : j = i
    · subst hji
      rw [set_same] at hj
      rcases hj with hj | hj | hj
      · exact absurd hj hv.1
      · exact absurd hj hv.2.1
      · exact absurd hj (hv.2.2 x)
    · rw [set_ne _ _ hji] at hj; exact f j x hj h0

theorem good_erase {s : St} {P : Nat → Option Nat} (h : Good s P) (p : Nat × Nat) :
    Good { s with held := s.held.erase p } P := by
  obtain ⟨a, b, c, d, e, f, g, k⟩ := h
  refine ⟨a, b, c, ?_, e, ?_, ?_, k⟩
  · intro q hq h0
    exact d q (hq.imp id List.mem_of_mem_erase) h0
  · intro i x hi h0
    have := f i x hi h0
    simp only [num_erase]
    omega
  · intro i h0
    have := g i h0
    simp only [num_erase]
    omega

/-- The push of a request that is not under way yet. -/
theorem good_push {s : St} {P : Nat → Option Nat} (h : Good s P) {i x : Nat} (hi : i < s.next)
    (h0 : i ≠ 0) (hP : P i = some x) (hn : num s.queue i + num s.held i = 0) :
    Good { s with queue := s.queue ++ [(i, x)], status := set s.status i .waiting,
                  rx := true } P := by
  obtain ⟨a, b, c, d, e, f, g, k⟩ := h
  refine ⟨a, ?_, ?_, ?_, ?_, ?_, ?_, by simp⟩
  · intro j hj
    simp only at hj ⊢
    rw [set_ne _ _ (by omega)]
    exact b j hj
  · simp only
    rw [set_ne _ _ (by omega)]
    exact c
  · intro p hp hp0
    simp only [List.mem_append, List.mem_singleton] at hp
    rcases hp with (hp | rfl) | hp
    · exact d p (.inl hp) hp0
    · exact hP
    · exact d p (.inr hp) hp0
  · intro j y hj
    simp only at hj
    by_cases hji : j = i
    · subst hji; rw [set_same] at hj; simp at hj
    · rw [set_ne _ _ hji] at hj; exact e j y hj
  · intro j y hj hj0
    simp only [num_append, num_cons, num_nil] at hj ⊢
    by_cases hji : j = i
    · subst hji; rw [set_same] at hj; simp at hj
    · rw [set_ne _ _ hji] at hj
      have := f j y hj hj0
      rw [if_neg (fun h => hji h.symm)]
      omega
  · intro j hj0
    simp only [num_append, num_cons, num_nil]
    have := g j hj0
    by_cases hji : i = j
    · subst hji; rw [if_pos rfl]; omega
    · rw [if_neg hji]; omega

/-- A call that cannot push: blocked or failed. -/
theorem good_stay {s : St} {P : Nat → Option Nat} (h : Good s P) {i x : Nat} (hi : i < s.next)
    (h0 : i ≠ 0) (hP : P i = some x) (hn : num s.queue i + num s.held i = 0) (v : Status)
    (hv : v = .blocked x ∨ v = .errSend) :
    Good { s with status := set s.status i v } P := by
  obtain ⟨a, b, c, d, e, f, g, k⟩ := h
  refine ⟨a, ?_, ?_, d, ?_, ?_, g, k⟩
  · intro j hj
    simp only at hj ⊢
    rw [set_ne _ _ (by omega)]
    exact b j hj
  · simp only
    rw [set_ne _ _ (by omega)]
    exact c
  · intro j y hj
    simp only at hj
    by_cases hji : j = i
    · subst hji
      rw [set_same] at hj
      rcases hv with rfl | rfl
      · rw [Status.blocked.injEq] at hj; rw [← hj]; exact hP
      · simp at hj
    · rw [set_ne _ _ hji] at hj; exact e j y hj
  · intro j y hj hj0
    simp only at hj ⊢
    by_cases hji : j = i
    · subst hji; exact hn
    · rw [set_ne _ _ hji] at hj; exact f j y hj hj0

theorem good_next {s : St} {P : Nat → Option Nat} (h : Good s P) :
    Good { s with next := s.next + 1 } P := by
  obtain ⟨a, b, c, d, e, f, g, k⟩ := h
  exact ⟨by simp only; omega, fun j hj => b j (by simp only at hj; omega), c, d, e, f, g, k⟩

theorem num_zero_of_unused {s : St} {P : Nat → Option Nat} (h : Good s P) :
    num s.queue s.next + num s.held s.next = 0 :=
  h.none s.next 0 (.inl (h.unused _ (Nat.le_refl _))) (by have := h.pos; omega)

theorem lt_next {s : St} {P : Nat → Option Nat} (h : Good s P) {i : Nat}
    (hi : s.status i ≠ .unused) : i < s.next ∧ i ≠ 0 := by
  constructor
  · rcases Nat.lt_or_ge i s.next with h1 | h1
    · exact h1
    · exact absurd (h.unused i h1) hi
  · rintro rfl; exact hi h.zero

theorem good_tPush {s : St} {P : Nat → Option Nat} (h : Good s P) {i x : Nat} (hi : i < s.next)
    (h0 : i ≠ 0) (hP : P i = some x) (hn : num s.queue i + num s.held i = 0) :
    Good (tPush s i x) P := by
  unfold tPush
  split
  · rename_i hr
    split
    · exact good_congr (good_push h hi h0 hP hn) rfl rfl rfl (by simp [hr]) rfl
    · exact good_stay h hi h0 hP hn _ (.inl rfl)
  · exact good_congr (good_stay h hi h0 hP hn _ (.inr rfl)) rfl rfl rfl rfl rfl

theorem good_cPush {s : St} {P : Nat → Option Nat} (h : Good s P) {i x : Nat} (hi : i < s.next)
    (h0 : i ≠ 0) (hP : P i = some x) (hn : num s.queue i + num s.held i = 0) :
    Good (cPush s i x) P := by
  unfold cPush
  split
  · rename_i hr
    split
    · exact good_congr (good_push h hi h0 hP hn) rfl rfl rfl (by simp [hr]) rfl
    · exact good_stay h hi h0 hP hn _ (.inl rfl)
  · exact good_stay h hi h0 hP hn _ (.inr rfl)

theorem good_recv {s : St} {P : Nat → Option Nat} (h : Good s P) {p : Nat × Nat}
    {q : List (Nat × Nat)} (hq : s.queue = p :: q) :
    Good { s with queue := q, held := p :: s.held } P := by
  obtain ⟨a, b, c, d, e, f, g, k⟩ := h
  refine ⟨a, b, c, ?_, e, ?_, ?_, ?_⟩
  · intro w hw h0
    simp only [List.mem_cons] at hw
    rw [hq] at d
    rcases hw with hw | rfl | hw
    · exact d w (.inl (List.mem_cons_of_mem _ hw)) h0
    · exact d w (.inl List.mem_cons_self) h0
    · exact d w (.inr hw) h0
  · intro i x hi h0
    have := f i x hi h0
    simp only [hq, num_cons] at this ⊢
    omega
  · intro i h0
    have := g i h0
    simp only [hq, num_cons] at this ⊢
    omega
  · intro hr
    have := k hr
    rw [hq] at this
    simp at this

theorem good_sendNo {s : St} {P : Nat → Option Nat} (h : Good s P) (x : Nat) (hr : s.rx = true) :
    Good { s with queue := s.queue ++ [(0, x)] } P := by
  obtain ⟨a, b, c, d, e, f, g, k⟩ := h
  refine ⟨a, b, c, ?_, e, ?_, ?_, by simp [hr]⟩
  · intro w hw h0
    simp only [List.mem_append, List.mem_singleton] at hw
    rcases hw with (hw | rfl) | hw
    · exact d w (.inl hw) h0
    · exact absurd rfl h0
    · exact d w (.inr hw) h0
  · intro i y hi h0
    have := f i y hi h0
    simp only [num_append, num_cons, num_nil]
    rw [if_neg (fun h => h0 h.symm)]
    omega
  · intro i h0
    have := g i h0
    simp only [num_append, num_cons, num_nil]
    rw [if_neg (fun h => h0 h.symm)]
    omega

theorem good_close {s : St} {P : Nat → Option Nat} (h : Good s P) :
    Good { s with rx := false, queue := [] } P := by
  obtain ⟨a, b, c, d, e, f, g, k⟩ := h
  refine ⟨a, b, c, ?_, e, ?_, ?_, by simp⟩
  · intro w hw h0
    rcases hw with hw | hw
    · simp at hw
    · exact d w (.inr hw) h0
  · intro i x hi h0
    have := f i x hi h0
    simp only [num_nil]; omega
  · intro i h0
    have := g i h0
    simp only [num_nil]; omega

theorem good_tStep {s : St} {P : Nat → Option Nat} (a : Act) (h : Good s P)
    (hP : ∀ x, a = .send x → P s.next = some x) : Good (tStep s a) P := by
  cases a with
  | send x =>
      have h1 : Good { s with next := s.next + 1, map := s.next :: s.map } P :=
        good_congr (good_next h) rfl rfl rfl rfl rfl
      exact good_tPush h1 (Nat.lt_succ_self _) (by have := h.pos; omega) (hP x rfl)
        (num_zero_of_unused h)
  | resume i =>
      simp only [tStep]
      split
      · rename_i x hx
        have := lt_next h (i := i) (by rw [hx]; simp)
        exact good_tPush h this.1 this.2 (h.blocked i x hx) (h.none i x (.inr (.inr hx)) this.2)
      · exact h
  | cancel i =>
      simp only [tStep]
      split
      · rename_i x hx; exact good_set h i .gone (by rw [hx]; simp) (by simp)
      · rename_i hx; exact good_set h i .gone (by rw [hx]; simp) (by simp)
      · exact h
  | sendNo x =>
      simp only [tStep]
      split
      · rename_i hr
        simp only [Bool.and_eq_true] at hr
        exact good_sendNo h x hr.1
      · exact h
  | recv =>
      simp only [tStep]
      split
      · exact h
      · rename_i p q hq
        split
        · exact good_recv h hq
        · exact h
  | reply p r =>
      simp only [tStep]
      split
      · split
        · split
          · rename_i hx
            exact good_congr (good_set h p.1 (.ok r) (by rw [hx]; simp) (by simp)) rfl rfl rfl rfl rfl
          · exact good_congr h rfl rfl rfl rfl rfl
        · exact good_congr h rfl rfl rfl rfl rfl
      · exact h
  | discard p => exact good_erase h p
  | dropRx => exact good_close h

theorem good_cStep {s : St} {P : Nat → Option Nat} (a : Act) (h : Good s P)
    (hP : ∀ x, a = .send x → P s.next = some x) : Good (cStep s a) P := by
  cases a with
  | send x =>
      exact good_cPush (good_next h) (Nat.lt_succ_self _) (by have := h.pos; omega) (hP x rfl)
        (num_zero_of_unused h)
  | resume i =>
      simp only [cStep]
      split
      · rename_i x hx
        have := lt_next h (i := i) (by rw [hx]; simp)
        exact good_cPush h this.1 this.2 (h.blocked i x hx) (h.none i x (.inr (.inr hx)) this.2)
      · exact h
  | cancel i =>
      simp only [cStep]
      split
      · rename_i x hx; exact good_set h i .gone (by rw [hx]; simp) (by simp)
      · rename_i hx; exact good_set h i .gone (by rw [hx]; simp) (by simp)
      · exact h
  | sendNo x =>
      simp only [cStep]
      split
      · rename_i hr
        simp only [Bool.and_eq_true] at hr
        exact good_sendNo h x hr.1
      · exact h
  | recv =>
      simp only [cStep]
      split
      · exact h
      · rename_i p q hq
        split
        · exact good_recv h hq
        · exact h
  | reply p r =>
      simp only [cStep]
      split
      · split
        · rename_i hx
          exact good_congr (good_set (good_erase h p) p.1 (.ok r) (by simp only [hx]; simp)
            (by simp)) rfl rfl rfl rfl rfl
        · exact good_congr (good_erase h p) rfl rfl rfl rfl rfl
      · exact h
  | discard p =>
      simp only [cStep]
      split
      · by_cases hw : s.status p.1 = .waiting
        · rw [hw]
          exact good_congr (good_set (good_erase h p) p.1 .errRecv (by simp only [hw]; simp)
            (by simp)) rfl rfl rfl rfl rfl
        · have hl : lost (s.status p.1) = s.status p.1 := by
            cases hs : s.status p.1 <;> simp_all [lost]
          rw [hl]
          refine good_congr (good_erase h p) rfl rfl rfl rfl ?_
          funext j
          simp only [set]
          split
          · rename_i hj; rw [hj]
          · rfl
      · exact h
  | dropRx =>
      have h1 := good_close h
      obtain ⟨a, b, c, d, e, f, g, k⟩ := h1
      have hl : ∀ j, (if j ∈ s.queue.map (·.1) then lost (s.status j) else s.status j) =
          s.status j ∨ (s.status j = .waiting ∧
          (if j ∈ s.queue.map (·.1) then lost (s.status j) else s.status j) = .errRecv) := by
        intro j
        by_cases hj : j ∈ s.queue.map (·.1)
        · rw [if_pos hj]
          cases hs : s.status j <;> simp [lost]
        · rw [if_neg hj]; exact .inl rfl
      simp only [cStep]
      refine ⟨a, ?_, ?_, d, ?_, ?_, g, k⟩
      · intro j hj
        have := b j hj
        simp only at this ⊢
        rcases hl j with h2 | h2
        · rw [h2]; exact this
        · rw [h2.1] at this; simp at this
      · simp only at c ⊢
        rcases hl 0 with h2 | h2
        · rw [h2]; exact c
        · rw [h2.1] at c; simp at c
      · intro j x hj
        simp only at hj
        rcases hl j with h2 | h2
        · rw [h2] at hj; exact e j x hj
        · rw [h2.2] at hj; simp at hj
      · intro j x hj hj0
        simp only at hj
        rcases hl j with h2 | h2
        · rw [h2] at hj; exact f j x hj hj0
        · rw [h2.2] at hj; simp at hj

/-! ## The map of the tracked channel -/

/-- Numbers in the map are of calls that are not over, or were abandoned. -/
structure Mapped (s : St) : Prop where
  range : ∀ i ∈ s.map, 1 ≤ i ∧ i < s.next
  nodup : s.map.Nodup
  waiting : ∀ i, s.status i = .waiting → i ∈ s.map
  blocked : ∀ i x, s.status i = .blocked x → i ∈ s.map
  over : ∀ i r, (s.status i = .ok r ∨ s.status i = .errSend) → i ∉ s.map
  recv : ∀ i, s.status i ≠ .errRecv

theorem mapped_init (cap : Nat) : Mapped (St.init cap) :=
  ⟨by simp [St.init], by simp [St.init], by simp [St.init], by simp [St.init], by simp [St.init],
   by simp [St.init]⟩

theorem mapped_tPush {s : St} {i x : Nat} (h : Mapped s) (hi : i ∈ s.map) : Mapped (tPush s i x) := by
  obtain ⟨a, b, c, d, e, f⟩ := h
  unfold tPush
  split
  · split
    · refine ⟨a, b, ?_, ?_, ?_, ?_⟩ <;> intro j <;> simp only [set] <;> split <;> simp_all
      · exact e j
    · refine ⟨a, b, ?_, ?_, ?_, ?_⟩ <;> intro j <;> simp only [set] <;> split <;> simp_all
      · exact e j
  · refine ⟨?_, List.Pairwise.filter _ b, ?_, ?_, ?_, ?_⟩
    · intro j hj
      simp only [List.mem_filter] at hj
      exact a j hj.1
    all_goals intro j
    all_goals simp only [set, List.mem_filter, bne_iff_ne]
    all_goals split
    all_goals simp_all
    · exact e j

theorem mapped_tStep {s : St} {P : Nat → Option Nat} (a : Act) (g : Good s P) (h : Mapped s) :
    Mapped (tStep s a) := by
  have h0 := h
  obtain ⟨h1, h2, h3, h4, h5, h6⟩ := h
  cases a with
  | send x =>
      refine mapped_tPush ⟨?_, ?_, ?_, ?_, ?_, h6⟩ (by simp)
      · intro i hi
        simp only [List.mem_cons] at hi ⊢
        have := g.pos
        rcases hi with rfl | hi
        · omega
        · have := h1 i hi; omega
      · simp only [List.nodup_cons]
        exact ⟨fun hm => by have := h1 _ hm; omega, h2⟩
      · intro i hi; exact List.mem_cons_of_mem _ (h3 i hi)
      · intro i y hi; exact List.mem_cons_of_mem _ (h4 i y hi)
      · intro i r hi
        simp only [List.mem_cons, not_or]
        refine ⟨?_, h5 i r hi⟩
        rintro rfl
        have := g.unused s.next (Nat.le_refl _)
        simp [this] at hi
  | resume i =>
      simp only [tStep]
      split
      · rename_i x hx; exact mapped_tPush h0 (h4 i x hx)
      · exact h0
  | cancel i =>
      simp only [tStep]
      split
      · refine ⟨h1, h2, ?_, ?_, ?_, ?_⟩ <;> intro j <;> simp only [set] <;> split <;> simp_all
        · exact h5 j
      · refine ⟨h1, h2, ?_, ?_, ?_, ?_⟩ <;> intro j <;> simp only [set] <;> split <;> simp_all
        · exact h5 j
      · exact h0
  | sendNo x =>
      simp only [tStep]
      split
      · exact ⟨h1, h2, h3, h4, h5, h6⟩
      · exact h0
  | recv =>
      simp only [tStep]
      split
      · exact h0
      · split
        · exact ⟨h1, h2, h3, h4, h5, h6⟩
        · exact h0
  | reply p r =>
      simp only [tStep]
      split
      · rename_i hp
        split
        · split
          · refine ⟨?_, List.Pairwise.filter _ h2, ?_, ?_, ?_, ?_⟩
            · intro j hj
              simp only [List.mem_filter] at hj
              exact h1 j hj.1
            all_goals intro j
            all_goals simp only [set, List.mem_filter, bne_iff_ne]
            all_goals split
            all_goals simp_all
            · exact h5 j
          · rename_i hns _ hw
            have hbl : ∀ x, s.status p.1 ≠ .blocked x := by
              intro x hx
              have hm := h4 _ _ hx
              have h0' := (h1 _ hm).1
              have := g.none p.1 x (.inr (.inr hx)) (by omega)
              have h7 : 0 < num s.held p.1 := num_pos.2 ⟨p.2, hp⟩
              omega
            refine ⟨?_, List.Pairwise.filter _ h2, ?_, ?_, ?_, h6⟩
            · intro j hj
              simp only [List.mem_filter] at hj
              exact h1 j hj.1
            · intro j hj
              simp only [List.mem_filter, bne_iff_ne]
              refine ⟨h3 j hj, ?_⟩
              rintro rfl
              exact hw hj
            · intro j x hj
              simp only [List.mem_filter, bne_iff_ne]
              refine ⟨h4 j x hj, ?_⟩
              rintro rfl
              exact hbl x hj
            · intro j r' hj hm
              simp only [List.mem_filter] at hm
              exact h5 j r' hj hm.1
        · exact ⟨h1, h2, h3, h4, h5, h6⟩
      · exact h0
  | discard p => exact ⟨h1, h2, h3, h4, h5, h6⟩
  | dropRx => exact ⟨h1, h2, h3, h4, h5, h6⟩

/-! ## Runs -/

theorem tRun_cons (s : St) (a : Act) (as : List Act) : tRun s (a :: as) = tRun (tStep s a) as := rfl
theorem cRun_cons (s : St) (a : Act) (as : List Act) : cRun s (a :: as) = cRun (cStep s a) as := rfl

/-- 1 for a call that makes a new number. -/
def sends : Act → Nat
  | .send _ => 1
  | _ => 0

theorem next_tStep (s : St) (a : Act) :
    (tStep s a).next = s.next + sends a := by
  cases a <;> simp only [tStep, tPush, sends] <;> repeat' split
  all_goals rfl

theorem next_cStep (s : St) (a : Act) :
    (cStep s a).next = s.next + sends a := by
  cases a <;> simp only [cStep, cPush, sends] <;> repeat' split
  all_goals rfl

theorem payloadOf_tail {P : Nat → Option Nat} {n : Nat} {a : Act} {as : List Act}
    (h : ∀ i, n ≤ i → P i = payloadOf i n (a :: as)) :
    (∀ x, a = .send x → P n = some x) ∧
    ∀ i, n + sends a ≤ i →
      P i = payloadOf i (n + sends a) as := by
  constructor
  · rintro x rfl
    rw [h n (Nat.le_refl _)]
    simp [payloadOf]
  · intro i hi
    cases a with
    | send x =>
        simp only [sends] at hi ⊢
        rw [h i (by omega)]
        simp only [payloadOf]
        rw [if_neg (by omega)]
    | _ => exact h i hi

theorem good_tRun (as : List Act) : ∀ {s : St} {P : Nat → Option Nat}, Good s P → Mapped s →
    (∀ i, s.next ≤ i → P i = payloadOf i s.next as) → Good (tRun s as) P ∧ Mapped (tRun s as) := by
  induction as with
  | nil => intro s P h m _; exact ⟨h, m⟩
  | cons a as ih =>
      intro s P h m hP
      have := payloadOf_tail hP
      rw [tRun_cons]
      apply ih (good_tStep a h this.1) (mapped_tStep a h m)
      rw [next_tStep]
      exact this.2

theorem good_cRun (as : List Act) : ∀ {s : St} {P : Nat → Option Nat}, Good s P →
    (∀ i, s.next ≤ i → P i = payloadOf i s.next as) → Good (cRun s as) P := by
  induction as with
  | nil => intro s P h _; exact h
  | cons a as ih =>
      intro s P h hP
      have := payloadOf_tail hP
      rw [cRun_cons]
      apply ih (good_cStep a h this.1)
      rw [next_cStep]
      exact this.2

/-- A call gets a response in a step only by the response to its own request. -/
theorem tStep_ok {s : St} {P : Nat → Option Nat} (g : Good s P) (m : Mapped s) (a : Act) (i r : Nat)
    (h : (tStep s a).status i = .ok r) :
    s.status i = .ok r ∨ ∃ x, a = .reply (i, x) r ∧ P i = some x := by
  have hpush : ∀ (t : St) (j x : Nat), (tPush t j x).status i = .ok r → t.status i = .ok r := by
    intro t j x ht
    unfold tPush at ht
    repeat' split at ht
    all_goals simp only [set] at ht
    all_goals split at ht
    all_goals first | exact ht | simp at ht
  cases a with
  | send x => exact .inl (hpush { s with next := s.next + 1, map := s.next :: s.map } s.next x h)
  | resume j =>
      simp only [tStep] at h
      split at h
      · exact .inl (hpush _ _ _ h)
      · exact .inl h
  | cancel j =>
      simp only [tStep] at h
      split at h
      · simp only [set] at h; split at h
        · simp at h
        · exact .inl h
      · simp only [set] at h; split at h
        · simp at h
        · exact .inl h
      · exact .inl h
  | sendNo x => simp only [tStep] at h; split at h <;> exact .inl h
  | recv =>
      simp only [tStep] at h
      split at h
      · exact .inl h
      · split at h <;> exact .inl h
  | reply p r' =>
      simp only [tStep] at h
      split at h
      · rename_i hp
        split at h
        · rename_i hm
          split at h
          · simp only [set] at h
            split at h
            · rename_i hi
              rw [Status.ok.injEq] at h
              subst h hi
              exact .inr ⟨p.2, rfl, g.payload p (.inr hp) (by have := (m.range _ hm).1; omega)⟩
            · exact .inl h
          · exact .inl h
        · exact .inl h
      · exact .inl h
  | discard p => exact .inl h
  | dropRx => exact .inl h

theorem cStep_ok {s : St} {P : Nat → Option Nat} (g : Good s P) (a : Act) (i r : Nat)
    (h : (cStep s a).status i = .ok r) :
    s.status i = .ok r ∨ ∃ x, a = .reply (i, x) r ∧ P i = some x := by
  have hpush : ∀ (t : St) (j x : Nat), (cPush t j x).status i = .ok r → t.status i = .ok r := by
    intro t j x ht
    unfold cPush at ht
    repeat' split at ht
    all_goals simp only [set] at ht
    all_goals split at ht
    all_goals first | exact ht | simp at ht
  have hlost : ∀ v : Status, lost v = .ok r → v = .ok r := by
    intro v hv; cases v <;> simp_all [lost]
  cases a with
  | send x => exact .inl (hpush { s with next := s.next + 1 } s.next x h)
  | resume j =>
      simp only [cStep] at h
      split at h
      · exact .inl (hpush _ _ _ h)
      · exact .inl h
  | cancel j =>
      simp only [cStep] at h
      split at h
      · simp only [set] at h; split at h
        · simp at h
        · exact .inl h
      · simp only [set] at h; split at h
        · simp at h
        · exact .inl h
      · exact .inl h
  | sendNo x => simp only [cStep] at h; split at h <;> exact .inl h
  | recv =>
      simp only [cStep] at h
      split at h
      · exact .inl h
      · split at h <;> exact .inl h
  | reply p r' =>
      simp only [cStep] at h
      split at h
      · rename_i hp
        split at h
        · simp only [set] at h
          split at h
          · rename_i hi
            rw [Status.ok.injEq] at h
            subst h hi
            exact .inr ⟨p.2, rfl, g.payload p (.inr hp.1) hp.2⟩
          · exact .inl h
        · exact .inl h
      · exact .inl h
  | discard p =>
      simp only [cStep] at h
      split at h
      · simp only [set] at h
        split at h
        · rename_i hi
          rw [hi]
          exact .inl (hlost _ h)
        · exact .inl h
      · exact .inl h
  | dropRx =>
      simp only [cStep] at h
      split at h
      · exact .inl (hlost _ h)
      · exact .inl h

end Verif.CallChan

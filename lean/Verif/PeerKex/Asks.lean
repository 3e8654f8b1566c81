/-
All runs in which both users ask once, from the finitely many of `Cross.lean`.
-/
import Verif.PeerKex.Cross

namespace Verif.PeerKex

theorem mem_of_same {L : List World} {v : World} (h : L.any (same v) = true) : v ∈ L := by
  obtain ⟨u, hu, e⟩ := List.any_eq_true.1 h
  rw [same_eq e]; exact hu

section
variable {pa pb : Nat} {L : List World} (hL : checked pa pb L = true)
include hL

theorem start_mem : start 1 2 ∈ L := by
  simp only [checked, Bool.and_eq_true] at hL
  exact mem_of_same hL.1

theorem good_mem {w : World} (hw : w ∈ L) : good (pa == pb) w = true := by
  simp only [checked, Bool.and_eq_true] at hL
  have := List.all_eq_true.1 hL.2 w hw
  simp only [Bool.and_eq_true] at this
  exact this.1

theorem move_mem {w : World} (hw : w ∈ L) {t : Act} (ht : t ∈ moves pa pb w) :
    step w t ∈ L ∧ ∀ i, t.connects i = false → (((step w t).slot i).psk = none ↔ (w.slot i).psk = none) := by
  simp only [checked, Bool.and_eq_true] at hL
  have := List.all_eq_true.1 hL.2 w hw
  simp only [Bool.and_eq_true] at this
  have := List.all_eq_true.1 this.2 t ht
  simp only [Bool.and_eq_true, Bool.or_eq_true, beq_iff_eq] at this
  refine ⟨mem_of_same this.1.1, fun i hi => ?_⟩
  cases i with
  | a =>
    rcases this.1.2 with q | q
    · rw [hi] at q; cases q
    · rw [← Option.isNone_iff_eq_none, ← Option.isNone_iff_eq_none]
      show (step w t).a.psk.isNone = true ↔ w.a.psk.isNone = true
      rw [q]
  | b =>
    rcases this.2 with q | q
    · rw [hi] at q; cases q
    · rw [← Option.isNone_iff_eq_none, ← Option.isNone_iff_eq_none]
      show (step w t).b.psk.isNone = true ↔ w.b.psk.isNone = true
      rw [q]

omit hL in
theorem did_nothing (w : World) (i : Side) : w.did i (w.slot i, []) = w := by
  cases i <;> simp [World.did, World.setSlot, World.slot, World.setUp, World.up]

omit hL in
/-- The end of a hole punching that does not run is nothing. -/
theorem punched_none (w : World) (i : Side) (n : Nat) (u : Bool) (h : ∀ q ∈ (w.slot i).punches, q.n ≠ n) :
    step w (.punched i n u) = w := by
  have : punched (w.slot i) n u = (w.slot i, []) := by
    unfold punched
    have : (w.slot i).punches.find? (·.n = n) = none := by
      rw [List.find?_eq_none]; intro q hq; simpa using h q hq
    rw [this]
  simp only [step, this]
  exact did_nothing w i

theorem step_mem {w : World} (hw : w ∈ L) {t : Act} (ht : t.inOrder pa pb = true)
    (hc : ∀ i, t.connects i = true → (w.slot i).psk = none) :
    step w t ∈ L ∧ ∀ i, t.connects i = false → (((step w t).slot i).psk = none ↔ (w.slot i).psk = none) := by
  have mv := fun h => move_mem hL hw (t := t) h
  cases t with
  | connect i p =>
    cases i with
    | a =>
      have e : p = pa := by simpa [Act.inOrder] using ht
      subst e
      have hn : w.a.psk = none := hc .a rfl
      exact mv (by simp [moves, hn])
    | b =>
      have e : p = pb := by simpa [Act.inOrder] using ht
      subst e
      have hn : w.b.psk = none := hc .b rfl
      exact mv (by simp [moves, hn])
  | respond i p => cases ht
  | dropped i id => cases ht
  | serve i k =>
    have e : k = 0 := by simpa [Act.inOrder] using ht
    subst e
    exact mv (by cases i <;> simp [moves])
  | deliver i k =>
    have e : k = 0 := by simpa [Act.inOrder] using ht
    subst e
    exact mv (by cases i <;> simp [moves])
  | punched i n u =>
    by_cases h : ∃ q ∈ (w.slot i).punches, q.n = n
    · obtain ⟨q, hq, rfl⟩ := h
      refine mv ?_
      cases i <;> cases u <;> simp only [moves, List.mem_append, List.mem_map]
      · exact .inl (.inl (.inl (.inr (.inl ⟨q, hq, rfl⟩))))
      · exact .inl (.inl (.inl (.inr (.inr ⟨q, hq, rfl⟩))))
      · exact .inl (.inl (.inr (.inl ⟨q, hq, rfl⟩)))
      · exact .inl (.inl (.inr (.inr ⟨q, hq, rfl⟩)))
    · have := punched_none w i n u (fun q hq e => h ⟨q, hq, e⟩)
      rw [this]
      exact ⟨hw, fun _ _ => Iff.rfl⟩

theorem good_cids {w : World} (hw : w ∈ L) : w.a.me = 1 ∧ w.a.peer = 2 ∧ w.b.me = 2 ∧ w.b.peer = 1 := by
  have := good_mem hL hw
  simp only [good, Bool.and_eq_true, decide_eq_true_eq] at this
  exact this.1.1.1.1

/-- Along a run the world stays among those computed, and the renamed run goes along. -/
theorem run_mem {f : Nat → Nat} {ca cb : Nat} (h0 : f 0 = 0) (hf : ∀ a b, f a = f b → a = b) (hlt : ca < cb)
    (acts : List Act) : ∀ w ∈ L, (∀ t ∈ acts, t.inOrder pa pb = true) →
      (∀ i, acts.countP (Act.connects i) ≤ 1) →
      (∀ i, 1 ≤ acts.countP (Act.connects i) → (w.slot i).psk = none) →
      run w acts ∈ L ∧ run (w.ren f ca cb) (acts.map (·.ren f)) = (run w acts).ren f ca cb := by
  induction acts with
  | nil => intro w hw _ _ _; exact ⟨hw, rfl⟩
  | cons t ts ih =>
    intro w hw hi h1 hn
    have hs := step_mem hL hw (hi t (List.mem_cons_self ..)) (fun i hc => hn i (by simp [List.countP_cons, hc]))
    have hc := good_cids hL hw
    have hr := ren_step (f := f) (ca := ca) (cb := cb) w h0 hf
      (by rw [hc.1, hc.2.1]; exact ⟨fun _ => hlt, fun _ => by omega⟩)
      (by rw [hc.2.2.1, hc.2.2.2]; exact ⟨fun _ => by omega, fun _ => by omega⟩) t
    have := ih (step w t) hs.1 (fun t ht => hi t (List.mem_cons_of_mem _ ht))
      (fun i => by have := h1 i; rw [List.countP_cons] at this; omega)
      (fun i q => by
        have q1 := h1 i
        rw [List.countP_cons] at q1
        have q2 : t.connects i = false := by
          cases e : t.connects i with
          | false => rfl
          | true => rw [e, if_pos rfl] at q1; omega
        exact (hs.2 i q2).2 (hn i (by rw [List.countP_cons]; omega)))
    refine ⟨this.1, ?_⟩
    rw [List.map_cons, run, run, hr]
    exact this.2

end

/-! ### Names -/

/-- The two passwords exchanged. -/
def swap (u v n : Nat) : Nat := if n = u then v else if n = v then u else n

theorem swap_inj (u v a b : Nat) (h : swap u v a = swap u v b) : a = b := by
  unfold swap at h
  split at h <;> split at h <;> (try split at h) <;> (try split at h) <;> omega

theorem swap_ne {u v n : Nat} (h : n ≠ u) (h' : n ≠ v) : swap u v n = n := by simp [swap, h, h']

theorem swap_left (u v : Nat) : swap u v u = v := by simp [swap]

/-- Any two passwords are some of the computed ones under other names. -/
theorem rename (pa pb : Nat) : ∃ (f : Nat → Nat) (qa qb : Nat) (L : List World), f 0 = 0 ∧
    (∀ a b, f a = f b → a = b) ∧ f qa = pa ∧ f qb = pb ∧ checked qa qb L = true ∧ (qa = qb ↔ pa = pb) := by
  by_cases e : pa = pb
  · subst e
    by_cases z : pa = 0
    · subst z
      exact ⟨id, 0, 0, _, rfl, fun _ _ h => h, rfl, rfl, checked_00, by simp⟩
    · exact ⟨swap 1 pa, 1, 1, _, by simp [swap]; omega, swap_inj 1 pa, swap_left 1 pa, swap_left 1 pa, checked_11,
        by simp⟩
  · by_cases za : pa = 0
    · subst za
      exact ⟨swap 1 pb, 0, 1, _, by simp [swap]; omega, swap_inj 1 pb, by simp [swap]; omega, swap_left 1 pb, checked_01,
        by simp [e]⟩
    · by_cases zb : pb = 0
      · subst zb
        exact ⟨swap 1 pa, 1, 0, _, by simp [swap]; omega, swap_inj 1 pa, swap_left 1 pa, by simp [swap]; omega,
          checked_10, by simp [e]⟩
      · refine ⟨fun n => swap (swap 1 pa 2) pb (swap 1 pa n), 1, 2, _, ?_, ?_, ?_, ?_, checked_12, by simp [e]⟩
        · have e0 : swap 1 pa 0 = 0 := swap_ne (by omega) (by omega)
          simp only [e0]
          exact swap_ne (fun q => by have := swap_inj 1 pa 0 2 (e0.trans q); omega) (by omega)
        · exact fun a b h => swap_inj 1 pa a b (swap_inj _ pb _ _ h)
        · simp only [swap_left]
          exact swap_ne (fun q => by have := swap_inj 1 pa 1 2 ((swap_left 1 pa).trans q); omega) e
        · exact swap_left _ _

/-- The action with other passwords. -/
def Act.with (qa qb : Nat) : Act → Act
  | .connect .a _ => .connect .a qa
  | .connect .b _ => .connect .b qb
  | t => t

theorem with_ren {f : Nat → Nat} {pa pb qa qb : Nat} (ha : f qa = pa) (hb : f qb = pb) {t : Act}
    (ht : t.inOrder pa pb = true) :
    (t.with qa qb).ren f = t ∧ (t.with qa qb).inOrder qa qb = true ∧ ∀ i, (t.with qa qb).connects i = t.connects i := by
  cases t with
  | connect i p =>
    cases i with
    | a =>
      have e : p = pa := by simpa [Act.inOrder] using ht
      subst e
      exact ⟨by simp [Act.with, Act.ren, ha], by simp [Act.with, Act.inOrder], fun _ => rfl⟩
    | b =>
      have e : p = pb := by simpa [Act.inOrder] using ht
      subst e
      exact ⟨by simp [Act.with, Act.ren, hb], by simp [Act.with, Act.inOrder], fun _ => rfl⟩
  | respond i p => cases ht
  | dropped i id => cases ht
  | serve i k => exact ⟨rfl, ht, fun _ => rfl⟩
  | deliver i k => exact ⟨rfl, ht, fun _ => rfl⟩
  | punched i n u => exact ⟨rfl, ht, fun _ => rfl⟩

/-- Every world of such a run is a good one under other names. -/
theorem asks_worlds (ca cb pa pb : Nat) (hlt : ca < cb) (acts : List Act) (hi : ∀ t ∈ acts, t.inOrder pa pb = true)
    (h1 : ∀ i, acts.countP (Act.connects i) ≤ 1) :
    ∃ (f : Nat → Nat) (w : World), good (decide (pa = pb)) w = true ∧
      run (start ca cb) acts = w.ren f ca cb := by
  obtain ⟨f, qa, qb, L, h0, hf, ha, hb, hL, he⟩ := rename pa pb
  have hm : (acts.map (·.with qa qb)).map (·.ren f) = acts := by
    rw [List.map_map]
    conv => rhs; rw [← List.map_id acts]
    exact List.map_congr_left (fun t ht => (with_ren ha hb (hi t ht)).1)
  have hcount : ∀ i, (acts.map (·.with qa qb)).countP (Act.connects i) = acts.countP (Act.connects i) := by
    intro i
    rw [List.countP_map]
    exact List.countP_congr (fun t ht => by
      simp only [Function.comp]; rw [(with_ren ha hb (hi t ht)).2.2 i])
  have hr := run_mem hL (f := f) (ca := ca) (cb := cb) h0 hf hlt (acts.map (·.with qa qb)) (start 1 2) (start_mem hL)
    (by
      intro t ht
      obtain ⟨t', ht', rfl⟩ := List.mem_map.1 ht
      exact (with_ren ha hb (hi t' ht')).2.1)
    (fun i => by rw [hcount]; exact h1 i) (fun i _ => by cases i <;> rfl)
  refine ⟨f, run (start 1 2) (acts.map (·.with qa qb)), ?_, ?_⟩
  · have := good_mem hL hr.1
    rw [show (qa == qb) = decide (pa = pb) by
      by_cases e : pa = pb
      · simp [e, he.2 e]
      · have : qa ≠ qb := fun q => e (he.1 q)
        simp [e, this]] at this
    exact this
  · rw [hm] at hr
    have hs : (start 1 2).ren f ca cb = start ca cb := rfl
    rw [hs] at hr
    exact hr.2

end Verif.PeerKex

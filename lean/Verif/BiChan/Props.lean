import Verif.BiChan.Model
/-!
# C142, C143: the bidirectional channel

* C142: an item that was accepted is received, in order, by an end which reads.
* C143: closing a channel comes to its end.
-/
namespace Verif.BiChan

/-- The task has sent `Halt`. -/
def Halted (p : Phase) : Prop := p = .sentHalt ∨ p = .waiting ∨ p = .done

/-- The items in a list of packets. -/
def items : List Pkt → List Nat
  | [] => []
  | .item x :: r => x :: items r
  | _ :: r => items r

/-- The items up to the first packet which is not an item. -/
def head : List Pkt → List Nat
  | .item x :: r => x :: head r
  | _ => []

theorem items_append (l r : List Pkt) : items (l ++ r) = items l ++ items r := by
  induction l with
  | nil => rfl
  | cons p l ih => cases p <;> simp [items, ih]

theorem head_append_item {l : List Pkt} (h : Pkt.halt ∉ l ∧ Pkt.haltVerified ∉ l) (x : Nat) :
    head (l ++ [.item x]) = head l ++ [x] := by
  induction l with
  | nil => rfl
  | cons p l ih =>
    cases p <;> simp_all [head]

theorem head_append_stop {l : List Pkt} {p : Pkt} (hp : p = .halt ∨ p = .haltVerified) : head (l ++ [p]) = head l := by
  induction l with
  | nil => rcases hp with h | h <;> subst h <;> rfl
  | cons q l ih => cases q <;> simp [head, ih]

theorem head_append_after {l r : List Pkt} (h : Pkt.halt ∈ l ∨ Pkt.haltVerified ∈ l) : head (l ++ r) = head l := by
  induction l with
  | nil => simp at h
  | cons q l ih =>
    cases q with
    | item x => simp at h; simp [head, ih h]
    | halt => rfl
    | haltVerified => rfl

/-- What one end knows of the other. -/
structure Half (me other : End) : Prop where
  haltIn : Pkt.halt ∈ me.inbox → Halted other.phase
  verIn : Pkt.haltVerified ∈ me.inbox → other.phase = .verified
  flag : me.halt = true → (me.phase = .live ∨ me.phase = .dropped) → Halted other.phase
  ver : me.phase = .verified → Halted other.phase ∧ me.halt = true
  done : me.phase = .done → other.phase = .verified
  verOut : me.phase = .verified → Pkt.haltVerified ∈ other.inbox ∨ other.phase = .done
  wait : me.phase = .waiting → me.halt = true
  sent : me.phase = .sentHalt → me.halt = false

/-- What a receiver `r` has of the items of a sender `s`. -/
structure Data (r s : End) : Prop where
  reading : r.phase = .live → r.halt = false → r.got ++ head r.inbox = s.beforeHalt
  sofar : r.got <+: s.beforeHalt
  accepted : s.beforeHalt <+: s.accepted
  all : (s.phase = .live ∨ s.phase = .dropped ∨ s.phase = .verified) → s.beforeHalt = s.accepted
  mark : r.phase = .live → r.halt = false → Halted s.phase → Pkt.halt ∈ r.inbox
  stopped : r.phase = .live → r.halt = true → r.got = s.beforeHalt

/-- The invariant, from both sides. -/
structure Inv2 (x y : End) : Prop where
  hx : Half x y
  hy : Half y x
  dx : Data x y
  dy : Data y x

theorem Inv2.swap {x y : End} (h : Inv2 x y) : Inv2 y x := ⟨h.hy, h.hx, h.dy, h.dx⟩

def Inv (s : St) : Prop := Inv2 s.a s.b

theorem head_prefix_items (l : List Pkt) : head l <+: items l := by
  induction l with
  | nil => exact List.prefix_refl _
  | cons p l ih =>
    cases p with
    | item x => exact (List.prefix_cons_inj x).2 ih
    | halt => exact List.nil_prefix
    | haltVerified => exact List.nil_prefix

theorem inv_send {x y : End} (h : Inv2 x y) (hh : x.halt = false) (n : Nat) :
    Inv2 { x with
      accepted := x.accepted ++ [n]
      beforeHalt := if x.phase = .live ∨ x.phase = .dropped then x.beforeHalt ++ [n] else x.beforeHalt }
      { y with inbox := y.inbox ++ [.item n] } := by
  obtain ⟨⟨p1, p2, p3, p4, p5, p6, p7, p8⟩, ⟨q1, q2, q3, q4, q5, q6, q7, q8⟩, ⟨c1, c2, c3, c4, c5, c6⟩,
    ⟨d1, d2, d3, d4, d5, d6⟩⟩ := h
  obtain ⟨ha, pa, ia, aa, ba, ga⟩ := x
  obtain ⟨hb, pb, ib, ab, bb, gb⟩ := y
  simp only [Halted] at *
  subst hh
  refine ⟨?_, ?_, ?_, ?_⟩
  · constructor <;> (try simp only [Halted]) <;> grind
  · constructor <;> (try simp only [Halted]) <;> grind
  · constructor <;> (try simp only [Halted]) <;> grind
  · by_cases hl : pa = .live ∨ pa = .dropped
    · simp only [if_pos hl]
      have hst : Pkt.halt ∉ ib ∧ Pkt.haltVerified ∉ ib := by constructor <;> grind
      refine ⟨?_, ?_, ?_, ?_, ?_, ?_⟩
      · intro h1 h2
        simp only at h1 h2 ⊢
        rw [head_append_item hst, ← List.append_assoc, d1 h1 h2]
      · exact d2.trans (List.prefix_append _ _)
      · simp only; rw [d4 (by grind)]; exact List.prefix_refl _
      · intro _; simp only; rw [d4 (by grind)]
      · intro h1 h2 h3; simp only [Halted] at h1 h2 h3; grind
      · intro h1 h2; simp only at h1 h2; grind
    · simp only [if_neg hl]
      refine ⟨?_, d2, d3.trans (List.prefix_append _ _), ?_, ?_, d6⟩
      · intro h1 h2
        simp only at h1 h2 ⊢
        have hin : Pkt.halt ∈ ib := by
          cases pa <;> grind
        rw [head_append_after (Or.inl hin)]
        exact d1 h1 h2
      · simp only; grind
      · intro h1 h2 h3; simp only [Halted] at h1 h2 h3 ⊢; grind

theorem inv_recv_item {x y : End} {n : Nat} {r : List Pkt} (h : Inv2 x y) (hp : x.phase = .live) (hh : x.halt = false)
    (hi : x.inbox = .item n :: r) : Inv2 { x with inbox := r, got := x.got ++ [n] } y := by
  obtain ⟨⟨p1, p2, p3, p4, p5, p6, p7, p8⟩, ⟨q1, q2, q3, q4, q5, q6, q7, q8⟩, ⟨c1, c2, c3, c4, c5, c6⟩,
    ⟨d1, d2, d3, d4, d5, d6⟩⟩ := h
  obtain ⟨ha, pa, ia, aa, ba, ga⟩ := x
  simp only at hp hh hi
  subst hp hh hi
  simp only [Halted] at *
  have e := c1 trivial trivial
  simp only [head] at e
  refine ⟨?_, ?_, ?_, ?_⟩
  · constructor <;> (try simp only [Halted]) <;> grind
  · constructor <;> (try simp only [Halted]) <;> grind
  · refine ⟨?_, ?_, c3, c4, ?_, ?_⟩
    · intro _ _; simp only [List.append_assoc]; exact e
    · simp only; rw [← e]; exact ⟨head r, by simp⟩
    · intro h1 h2 h3; simp only [Halted] at h3 ⊢; have := c5 trivial trivial h3; simpa using this
    · intro _ h2; simp only at h2; cases h2
  · exact ⟨d1, d2, d3, fun _ => d4 (Or.inl trivial), fun h1 h2 h3 => d5 h1 h2 (by simp [Halted] at h3), d6⟩

theorem inv_recv_stop {x y : End} {p : Pkt} {r : List Pkt} (h : Inv2 x y) (hp : x.phase = .live) (hh : x.halt = false)
    (hi : x.inbox = p :: r) (hs : p = .halt ∨ p = .haltVerified) : Inv2 { x with inbox := r, halt := true } y := by
  obtain ⟨⟨p1, p2, p3, p4, p5, p6, p7, p8⟩, ⟨q1, q2, q3, q4, q5, q6, q7, q8⟩, ⟨c1, c2, c3, c4, c5, c6⟩,
    ⟨d1, d2, d3, d4, d5, d6⟩⟩ := h
  obtain ⟨ha, pa, ia, aa, ba, ga⟩ := x
  simp only at hp hh hi
  subst hp hh hi
  simp only [Halted] at *
  have e := c1 trivial trivial
  have e' : head (p :: r) = [] := by rcases hs with h | h <;> subst h <;> rfl
  rw [e', List.append_nil] at e
  refine ⟨?_, ?_, ?_, ?_⟩
  · constructor <;> (try simp only [Halted]) <;> grind
  · constructor <;> (try simp only [Halted]) <;> grind
  · refine ⟨?_, c2, c3, c4, ?_, fun _ _ => e⟩
    · intro _ h2; simp only at h2; cases h2
    · intro _ h2; simp only at h2; cases h2
  · exact ⟨d1, d2, d3, fun _ => d4 (Or.inl trivial), fun h1 h2 h3 => d5 h1 h2 (by simp [Halted] at h3), d6⟩

theorem inv_drop {x y : End} (h : Inv2 x y) (hp : x.phase = .live) : Inv2 { x with phase := .dropped } y := by
  obtain ⟨⟨p1, p2, p3, p4, p5, p6, p7, p8⟩, ⟨q1, q2, q3, q4, q5, q6, q7, q8⟩, ⟨c1, c2, c3, c4, c5, c6⟩,
    ⟨d1, d2, d3, d4, d5, d6⟩⟩ := h
  obtain ⟨ha, pa, ia, aa, ba, ga⟩ := x
  simp only at hp
  subst hp
  simp only [Halted] at *
  refine ⟨?_, ?_, ?_, ?_⟩ <;> constructor <;> (try simp only [Halted]) <;> grind

theorem inv_halt {x y : End} (h : Inv2 x y) (hp : x.phase = .dropped) (hh : x.halt = false) :
    Inv2 { x with phase := .sentHalt } { y with inbox := y.inbox ++ [.halt] } := by
  obtain ⟨⟨p1, p2, p3, p4, p5, p6, p7, p8⟩, ⟨q1, q2, q3, q4, q5, q6, q7, q8⟩, ⟨c1, c2, c3, c4, c5, c6⟩,
    ⟨d1, d2, d3, d4, d5, d6⟩⟩ := h
  obtain ⟨ha, pa, ia, aa, ba, ga⟩ := x
  obtain ⟨hb, pb, ib, ab, bb, gb⟩ := y
  simp only at hp hh
  subst hp hh
  simp only [Halted] at *
  refine ⟨?_, ?_, ?_, ?_⟩
  · constructor <;> (try simp only [Halted]) <;> grind
  · constructor <;> (try simp only [Halted]) <;> grind
  · constructor <;> (try simp only [Halted]) <;> grind
  · refine ⟨?_, d2, d3, ?_, ?_, d6⟩
    · intro h1 h2; simp only at h1 h2 ⊢; rw [head_append_stop (Or.inl rfl)]; exact d1 h1 h2
    · simp only; grind
    · intro _ _ _; simp

theorem inv_verified {x y : End} (h : Inv2 x y) (hp : x.phase = .dropped) (hh : x.halt = true) :
    Inv2 { x with phase := .verified } { y with inbox := y.inbox ++ [.haltVerified] } := by
  obtain ⟨⟨p1, p2, p3, p4, p5, p6, p7, p8⟩, ⟨q1, q2, q3, q4, q5, q6, q7, q8⟩, ⟨c1, c2, c3, c4, c5, c6⟩,
    ⟨d1, d2, d3, d4, d5, d6⟩⟩ := h
  obtain ⟨ha, pa, ia, aa, ba, ga⟩ := x
  obtain ⟨hb, pb, ib, ab, bb, gb⟩ := y
  simp only at hp hh
  subst hp hh
  simp only [Halted] at *
  refine ⟨?_, ?_, ?_, ?_⟩
  · constructor <;> (try simp only [Halted]) <;> grind
  · constructor <;> (try simp only [Halted]) <;> grind
  · constructor <;> (try simp only [Halted]) <;> grind
  · refine ⟨?_, d2, d3, ?_, ?_, d6⟩
    · intro h1 h2; simp only at h1 h2 ⊢; rw [head_append_stop (Or.inr rfl)]; exact d1 h1 h2
    · simp only; grind
    · intro h1 h2 h3; simp only [Halted] at h1 h2 h3 ⊢; grind

theorem inv_flag {x y : End} (h : Inv2 x y) (hp : x.phase = .sentHalt) :
    Inv2 { x with phase := .waiting, halt := true } y := by
  obtain ⟨⟨p1, p2, p3, p4, p5, p6, p7, p8⟩, ⟨q1, q2, q3, q4, q5, q6, q7, q8⟩, ⟨c1, c2, c3, c4, c5, c6⟩,
    ⟨d1, d2, d3, d4, d5, d6⟩⟩ := h
  obtain ⟨ha, pa, ia, aa, ba, ga⟩ := x
  simp only at hp
  subst hp
  simp only [Halted] at *
  refine ⟨?_, ?_, ?_, ?_⟩ <;> constructor <;> (try simp only [Halted]) <;> grind

theorem inv_done {x y : End} {r : List Pkt} (h : Inv2 x y) (hp : x.phase = .waiting)
    (hi : x.inbox = .haltVerified :: r) : Inv2 { x with inbox := r, phase := .done } y := by
  obtain ⟨⟨p1, p2, p3, p4, p5, p6, p7, p8⟩, ⟨q1, q2, q3, q4, q5, q6, q7, q8⟩, ⟨c1, c2, c3, c4, c5, c6⟩,
    ⟨d1, d2, d3, d4, d5, d6⟩⟩ := h
  obtain ⟨ha, pa, ia, aa, ba, ga⟩ := x
  simp only at hp hi
  subst hp hi
  simp only [Halted] at *
  refine ⟨?_, ?_, ?_, ?_⟩ <;> constructor <;> (try simp only [Halted]) <;> grind

theorem inv_skip {x y : End} {p : Pkt} {r : List Pkt} (h : Inv2 x y) (hp : x.phase = .waiting)
    (hi : x.inbox = p :: r) (hs : p ≠ .haltVerified) : Inv2 { x with inbox := r } y := by
  obtain ⟨⟨p1, p2, p3, p4, p5, p6, p7, p8⟩, ⟨q1, q2, q3, q4, q5, q6, q7, q8⟩, ⟨c1, c2, c3, c4, c5, c6⟩,
    ⟨d1, d2, d3, d4, d5, d6⟩⟩ := h
  obtain ⟨ha, pa, ia, aa, ba, ga⟩ := x
  simp only at hp hi
  subst hp hi
  simp only [Halted] at *
  refine ⟨?_, ?_, ?_, ?_⟩ <;> constructor <;> (try simp only [Halted]) <;> grind

/-- The invariant from the side of an end. -/
theorem inv_iff (s : St) (i : Bool) : Inv s ↔ Inv2 (s.get i) (s.get (!i)) := by
  cases i
  · exact ⟨Inv2.swap, Inv2.swap⟩
  · exact Iff.rfl

@[simp] theorem get_set_same (s : St) (i : Bool) (e : End) : (s.set i e).get i = e := by cases i <;> rfl
@[simp] theorem get_set_not (s : St) (i : Bool) (e : End) : (s.set i e).get (!i) = s.get (!i) := by cases i <;> rfl
@[simp] theorem get_set_not' (s : St) (i : Bool) (e : End) : (s.set (!i) e).get i = s.get i := by cases i <;> rfl

theorem inv_step {s : St} (h : Inv s) (x : Act) : Inv (step s x) := by
  cases x with
  | send i n =>
    have h2 := (inv_iff s i).1 h
    simp only [step, sendItem]
    by_cases hh : (s.get i).halt = true
    · rw [if_pos hh]; exact h
    · rw [if_neg hh]
      refine (inv_iff _ i).2 ?_
      simp only [push, get_set_same, get_set_not, get_set_not']
      exact inv_send h2 (by simpa using hh) n
  | recv i =>
    have h2 := (inv_iff s i).1 h
    simp only [step, recv]
    by_cases hc : (s.get i).phase = .live ∧ (s.get i).halt = false
    · rw [if_pos hc]
      cases hi : (s.get i).inbox with
      | nil => exact h
      | cons p r =>
        refine (inv_iff _ i).2 ?_
        cases p with
        | item n => simp only [get_set_same, get_set_not]; exact inv_recv_item h2 hc.1 hc.2 hi
        | halt => simp only [get_set_same, get_set_not]; exact inv_recv_stop h2 hc.1 hc.2 hi (Or.inl rfl)
        | haltVerified => simp only [get_set_same, get_set_not]; exact inv_recv_stop h2 hc.1 hc.2 hi (Or.inr rfl)
    · rw [if_neg hc]; exact h
  | drop i =>
    have h2 := (inv_iff s i).1 h
    simp only [step, dropRecv]
    by_cases hc : (s.get i).phase = .live
    · rw [if_pos hc]
      refine (inv_iff _ i).2 ?_
      simp only [get_set_same, get_set_not]
      exact inv_drop h2 hc
    · rw [if_neg hc]; exact h
  | task i =>
    have h2 := (inv_iff s i).1 h
    simp only [step, task]
    cases hp : (s.get i).phase with
    | dropped =>
      by_cases hh : (s.get i).halt = false
      · simp only [hh, if_true]
        refine (inv_iff _ i).2 ?_
        simp only [push, get_set_same, get_set_not, get_set_not']
        have := inv_halt h2 hp hh
        rwa [hh] at this
      · have hh' : (s.get i).halt = true := by simpa using hh
        simp only [hh', Bool.true_eq_false, if_false]
        refine (inv_iff _ i).2 ?_
        simp only [push, get_set_same, get_set_not, get_set_not']
        have := inv_verified h2 hp hh'
        rwa [hh'] at this
    | sentHalt =>
      refine (inv_iff _ i).2 ?_
      simp only [get_set_same, get_set_not]
      exact inv_flag h2 hp
    | waiting =>
      cases hi : (s.get i).inbox with
      | nil => exact h
      | cons p r =>
        refine (inv_iff _ i).2 ?_
        cases p with
        | item n =>
          simp only [get_set_same, get_set_not]
          have := inv_skip h2 hp hi (by simp)
          rwa [hp] at this
        | halt =>
          simp only [get_set_same, get_set_not]
          have := inv_skip h2 hp hi (by simp)
          rwa [hp] at this
        | haltVerified => simp only [get_set_same, get_set_not]; exact inv_done h2 hp hi
    | live => exact h
    | done => exact h
    | verified => exact h

theorem inv_run (as : List Act) : ∀ {s : St}, Inv s → Inv (run s as) := by
  induction as with
  | nil => intro s h; exact h
  | cons a as ih => intro s h; exact ih (inv_step h a)

theorem inv_start : Inv {} := by
  refine ⟨?_, ?_, ?_, ?_⟩ <;> constructor <;> simp [Halted, head]

theorem run_append (s : St) (as bs : List Act) : run s (as ++ bs) = run (run s as) bs := by simp [run]

/-! ## C142 -/

/-- Whatever both ends do: what an end has received is a prefix of what the other end was told is sent; an end which has
read all that has arrived, or has read the mark of the end, has received everything that was accepted before the other
end closed its receive half. Missing for the full statement: an item that is accepted after this mark is lost
(`C142_counterexample_lost`), and an end which closes its receive half cannot send (`C142_counterexample_refused`). -/
theorem C142_delivered_partial (as : List Act) (i : Bool) :
    let s := run {} as
    (s.get i).got <+: (s.get (!i)).accepted ∧
    ((s.get i).phase = .live → ((s.get i).inbox = [] ∨ (s.get i).halt = true) →
      (s.get i).got = (s.get (!i)).beforeHalt) ∧
    ((s.get (!i)).phase = .live → (s.get (!i)).beforeHalt = (s.get (!i)).accepted) := by
  intro s
  have h := (inv_iff s i).1 (inv_run as inv_start)
  refine ⟨h.dx.sofar.trans h.dx.accepted, ?_, fun hp => h.dx.all (Or.inl hp)⟩
  intro hp hor
  by_cases hh : (s.get i).halt = true
  · exact h.dx.stopped hp hh
  · have hh' : (s.get i).halt = false := by simpa using hh
    rcases hor with he | hf
    · have := h.dx.reading hp hh'
      rw [he] at this
      simpa [head] using this
    · rw [hh'] at hf; cases hf

/-- Two items in one direction and one in the other. -/
example : (run {} [.send true 1, .send false 5, .send true 2, .recv false, .recv false, .recv true]).b.got = [1, 2] := by
  decide

theorem halt_step {s : St} {i : Bool} (h : (s.get i).halt = true) (a : Act) :
    ((step s a).get i).halt = true ∧ ((step s a).get i).accepted = (s.get i).accepted ∧
      ((step s a).get i).got = (s.get i).got := by
  cases a with
  | send j n =>
    by_cases hj : j = i
    · subst hj; simp [step, sendItem, h]
    · have hj' : i = !j := by cases i <;> cases j <;> simp_all
      subst hj'
      simp only [step, sendItem]
      split
      · exact ⟨h, rfl, rfl⟩
      · simp [push, h]
  | recv j =>
    by_cases hj : j = i
    · subst hj; simp [step, recv, h]
    · have hj' : i = !j := by cases i <;> cases j <;> simp_all
      subst hj'
      simp only [step, recv]
      split
      · split <;> simp [h]
      · exact ⟨h, rfl, rfl⟩
  | drop j =>
    by_cases hj : j = i
    · subst hj
      simp only [step, dropRecv]
      split <;> simp [h]
    · have hj' : i = !j := by cases i <;> cases j <;> simp_all
      subst hj'
      simp only [step, dropRecv]
      split <;> simp [h]
  | task j =>
    by_cases hj : j = i
    · subst hj
      simp only [step, task]
      split
      · simp [push, h]
      · simp
      · split <;> simp [h]
      · exact ⟨h, rfl, rfl⟩
    · have hj' : i = !j := by cases i <;> cases j <;> simp_all
      subst hj'
      simp only [step, task]
      split
      · split <;> simp [push, h]
      · simp [h]
      · split <;> simp [h]
      · exact ⟨h, rfl, rfl⟩

theorem halt_run {i : Bool} (as : List Act) : ∀ {s : St}, (s.get i).halt = true →
    ((run s as).get i).halt = true ∧ ((run s as).get i).accepted = (s.get i).accepted ∧
      ((run s as).get i).got = (s.get i).got := by
  induction as with
  | nil => intro s h; exact ⟨h, rfl, rfl⟩
  | cons a as ih =>
    intro s h
    obtain ⟨h1, h2, h3⟩ := halt_step h a
    obtain ⟨g1, g2, g3⟩ := ih h1
    exact ⟨g1, g2.trans h2, g3.trans h3⟩

/-- The receive half is dropped; between `Halt` and the flag the send half accepts an item. The other end reads on, but
no continuation ever delivers the item. -/
theorem C142_counterexample_lost (x : Nat) (as : List Act) :
    let s := run {} [.drop true, .task true, .send true x, .recv false]
    s.a.accepted = [x] ∧ s.b.phase = .live ∧ (run s as).b.got = [] := by
  intro s
  refine ⟨rfl, rfl, ?_⟩
  exact (halt_run (i := false) as (s := s) rfl).2.2

/-- After the receive half is dropped, the send half of the same end refuses every item, although the other end reads:
the halves do not work on their own. -/
theorem C142_counterexample_refused (as : List Act) :
    let s := run {} [.drop true, .task true, .task true]
    s.b.phase = .live ∧ s.b.halt = false ∧ (run s as).a.accepted = [] := by
  intro s
  refine ⟨rfl, rfl, ?_⟩
  exact (halt_run (i := true) as (s := s) rfl).2.1

/-! ## C143 -/

/-- A task has come to its end. -/
def Ended (p : Phase) : Prop := p = .done ∨ p = .verified

/-- Steps of the task of one end. -/
def isTask (i : Bool) : Act → Bool
  | .task j => j == i
  | _ => false

theorem closing_step {s : St} {i : Bool} (h : Inv s) (hv : (s.get (!i)).phase = .verified)
    (hw : (s.get i).phase ≠ .done) (a : Act) :
    ((step s a).get (!i)).phase = .verified ∧
    (((step s a).get i).phase = .done ∨
      2 * ((step s a).get i).inbox.length + (if ((step s a).get i).phase = .sentHalt then 1 else 0)
        + (if isTask i a then 1 else 0)
        ≤ 2 * (s.get i).inbox.length + (if (s.get i).phase = .sentHalt then 1 else 0)) := by
  have h2 := (inv_iff s (!i)).1 h
  rw [Bool.not_not] at h2
  have hhalt : (s.get (!i)).halt = true := (h2.hx.ver hv).2
  have hphase : (s.get i).phase = .sentHalt ∨ (s.get i).phase = .waiting := by
    rcases (h2.hx.ver hv).1 with h | h | h
    · exact Or.inl h
    · exact Or.inr h
    · exact (hw h).elim
  have hin : Pkt.haltVerified ∈ (s.get i).inbox := by
    rcases h2.hx.verOut hv with h | h
    · exact h
    · exact (hw h).elim
  have hnl : (s.get i).phase ≠ .live := by rcases hphase with h | h <;> rw [h] <;> simp
  cases a with
  | send j n =>
    by_cases hj : j = i
    · subst hj
      simp only [step, sendItem]
      split
      · exact ⟨hv, Or.inr (by simp [isTask])⟩
      · simp only [push, get_set_not, get_set_same, get_set_not']
        exact ⟨hv, Or.inr (by simp [isTask])⟩
    · have hj' : j = !i := by cases i <;> cases j <;> simp_all
      subst hj'
      simp only [step, sendItem, hhalt, if_true]
      exact ⟨hv, Or.inr (by simp [isTask])⟩
  | recv j =>
    by_cases hj : j = i
    · subst hj
      simp only [step, recv, hnl, false_and, if_false]
      exact ⟨hv, Or.inr (by simp [isTask])⟩
    · have hj' : j = !i := by cases i <;> cases j <;> simp_all
      subst hj'
      simp only [step, recv, hv]
      exact ⟨by simp [hv], Or.inr (by simp [isTask])⟩
  | drop j =>
    by_cases hj : j = i
    · subst hj
      simp only [step, dropRecv, hnl, if_false]
      exact ⟨hv, Or.inr (by simp [isTask])⟩
    · have hj' : j = !i := by cases i <;> cases j <;> simp_all
      subst hj'
      simp only [step, dropRecv, hv]
      exact ⟨by simp [hv], Or.inr (by simp [isTask])⟩
  | task j =>
    by_cases hj : j = i
    · subst hj
      rcases hphase with hp | hp
      · simp only [step, task, hp, get_set_not, get_set_same]
        exact ⟨hv, Or.inr (by simp [isTask])⟩
      · simp only [step, task, hp]
        cases hi : (s.get j).inbox with
        | nil => rw [hi] at hin; cases hin
        | cons p r =>
          cases p with
          | haltVerified => simp only [get_set_not, get_set_same]; exact ⟨hv, Or.inl trivial⟩
          | item n => simp only [get_set_not, get_set_same]; exact ⟨hv, Or.inr (by simp [isTask]; omega)⟩
          | halt => simp only [get_set_not, get_set_same]; exact ⟨hv, Or.inr (by simp [isTask]; omega)⟩
    · have hj' : j = !i := by cases i <;> cases j <;> simp_all
      subst hj'
      simp only [step, task, hv]
      exact ⟨trivial, Or.inr (by cases i <;> simp [isTask])⟩

theorem done_step {s : St} {i : Bool} (h : (s.get i).phase = .done) (a : Act) : ((step s a).get i).phase = .done := by
  cases a with
  | send j n =>
    simp only [step, sendItem]
    split
    · exact h
    · cases i <;> cases j <;> simp_all [push, St.get, St.set]
  | recv j =>
    simp only [step, recv]
    split
    · rename_i hc
      split <;> cases i <;> cases j <;> simp_all [St.get, St.set]
    · exact h
  | drop j =>
    simp only [step, dropRecv]
    split
    · cases i <;> cases j <;> simp_all [St.get, St.set]
    · exact h
  | task j =>
    by_cases hj : j = i
    · subst hj; simp [step, task, h]
    · have hj' : i = !j := by cases i <;> cases j <;> simp_all
      subst hj'
      simp only [step, task]
      split
      · split <;> simp [push, h]
      · simp [h]
      · split <;> simp [h]
      · exact h

theorem done_run {i : Bool} (as : List Act) : ∀ {s : St}, (s.get i).phase = .done → ((run s as).get i).phase = .done := by
  induction as with
  | nil => intro s h; exact h
  | cons a as ih => intro s h; exact ih (done_step h a)

theorem closing_run {i : Bool} (as : List Act) : ∀ {s : St}, Inv s → (s.get (!i)).phase = .verified →
    2 * (s.get i).inbox.length + 2 ≤ as.countP (isTask i) → ((run s as).get i).phase = .done := by
  have key : ∀ (as : List Act) {s : St}, Inv s → (s.get (!i)).phase = .verified →
      2 * (s.get i).inbox.length + (if (s.get i).phase = .sentHalt then 1 else 0) < as.countP (isTask i) →
      ((run s as).get i).phase = .done := by
    intro as
    induction as with
    | nil => intro s _ _ h; simp at h
    | cons a as ih =>
      intro s h hv hc
      by_cases hd : (s.get i).phase = .done
      · exact done_run (a :: as) hd
      · obtain ⟨h1, h2⟩ := closing_step h hv hd a
        rcases h2 with h2 | h2
        · exact done_run as h2
        · refine ih (inv_step h a) h1 ?_
          rw [List.countP_cons] at hc
          omega
  intro s h hv hc
  exact key as h hv (by split <;> omega)

/-- If an end has read the mark of the other end when it drops its own receive half, its task ends at once, and the task
of the other end ends after a bounded number of its steps, whatever else happens. Missing for the full statement: an end
which has not read the mark (`C143_counterexample_unread`). -/
theorem C143_closes_partial (as bs : List Act) (i : Bool)
    (hdrop : ((run {} as).get i).phase = .dropped) (hread : ((run {} as).get i).halt = true)
    (hcount : 2 * ((step (run {} as) (.task i)).get (!i)).inbox.length + 2 ≤ bs.countP (isTask (!i))) :
    let s := run (step (run {} as) (.task i)) bs
    (s.get (!i)).phase = .done ∧ ((step (run {} as) (.task i)).get i).phase = .verified := by
  intro s
  have hinv := inv_step (inv_run as inv_start) (.task i)
  have hv : ((step (run {} as) (.task i)).get i).phase = .verified := by
    simp [step, task, hdrop, hread, push]
  refine ⟨?_, hv⟩
  exact closing_run (i := !i) bs hinv (by rw [Bool.not_not]; exact hv) hcount

example : let s := run {} [.send false 3, .drop true, .task true, .task true, .recv false, .drop false]
    (s.get false).phase = .dropped ∧ (s.get false).halt = true := by decide

/-- Both tasks have sent `Halt`, and wait. -/
def Stuck (s : St) : Prop :=
  ∀ i, ((s.get i).phase = .sentHalt ∨ (s.get i).phase = .waiting) ∧ Pkt.haltVerified ∉ (s.get i).inbox

theorem stuck_step {s : St} (h : Stuck s) (a : Act) : Stuck (step s a) := by
  have hn : ∀ i, (s.get i).phase ≠ .live := by
    intro i; rcases (h i).1 with h | h <;> rw [h] <;> simp
  have other : ∀ (j : Bool) (t : St), (∀ i, i = j ∨ t.get i = s.get i) →
      ((t.get j).phase = .sentHalt ∨ (t.get j).phase = .waiting) ∧ Pkt.haltVerified ∉ (t.get j).inbox → Stuck t := by
    intro j t h1 h2 i
    rcases h1 i with h3 | h3
    · rw [h3]; exact h2
    · rw [h3]; exact h i
  cases a with
  | send j n =>
    simp only [step, sendItem]
    split
    · exact h
    · intro i
      have h1 := h i
      cases i <;> cases j <;> simp_all [push, St.get, St.set]
  | recv j => simp only [step, recv, hn j, false_and, if_false]; exact h
  | drop j => simp only [step, dropRecv, hn j, if_false]; exact h
  | task j =>
    have hj := h j
    rcases hj.1 with hp | hp
    · simp only [step, task, hp]
      refine other j _ ?_ ?_
      · intro i; cases i <;> cases j <;> simp [St.get, St.set]
      · simp only [get_set_same]; exact ⟨Or.inr trivial, hj.2⟩
    · simp only [step, task, hp]
      cases hi : (s.get j).inbox with
      | nil => exact h
      | cons p r =>
        have hr : Pkt.haltVerified ∉ r := by
          intro hm; exact hj.2 (by rw [hi]; exact List.mem_cons_of_mem _ hm)
        cases p with
        | haltVerified => exact (hj.2 (by rw [hi]; exact List.mem_cons_self)).elim
        | item n =>
          refine other j _ ?_ ?_
          · intro i; cases i <;> cases j <;> simp [St.get, St.set]
          · simp only [get_set_same]; exact ⟨Or.inr trivial, hr⟩
        | halt =>
          refine other j _ ?_ ?_
          · intro i; cases i <;> cases j <;> simp [St.get, St.set]
          · simp only [get_set_same]; exact ⟨Or.inr trivial, hr⟩

theorem stuck_run (as : List Act) : ∀ {s : St}, Stuck s → Stuck (run s as) := by
  induction as with
  | nil => intro s h; exact h
  | cons a as ih => intro s h; exact ih (stuck_step h a)

/-- In every reachable state in which one end has sent its mark and the other end, which has not read the mark, drops its
receive half and runs its task: both tasks wait for ever, in every continuation. -/
theorem C143_counterexample_unread (as bs : List Act) (i : Bool)
    (hi : ((run {} as).get i).phase = .sentHalt ∨ ((run {} as).get i).phase = .waiting)
    (hlive : ((run {} as).get (!i)).phase = .live) (hunread : ((run {} as).get (!i)).halt = false) :
    let s := run (run {} as) (.drop (!i) :: .task (!i) :: bs)
    ¬ Ended (s.get true).phase ∧ ¬ Ended (s.get false).phase := by
  intro s
  have hinv := inv_run as inv_start
  have hstuck : Stuck (run (run {} as) [.drop (!i), .task (!i)]) := by
    generalize hg : run {} as = t at hi hlive hunread hinv
    have h2 := (inv_iff t i).1 hinv
    have e : run t [.drop (!i), .task (!i)]
        = push ((t.set (!i) { t.get (!i) with phase := .dropped }).set (!i) { t.get (!i) with phase := .sentHalt }) (!i) .halt := by
      simp only [run, List.foldl_cons, List.foldl_nil, step, dropRecv, hlive, if_true, task, get_set_same, hunread]
    have n1 : Pkt.haltVerified ∉ (t.get i).inbox := by
      intro hm; have := h2.hx.verIn hm; rw [hlive] at this; cases this
    have n2 : Pkt.haltVerified ∉ (t.get (!i)).inbox := by
      intro hm; have := h2.hy.verIn hm
      rcases hi with h | h <;> rw [h] at this <;> cases this
    rw [e]
    intro j
    cases i <;> cases j <;> simp_all [push, St.get, St.set]
  have hs : Stuck s := by
    have : s = run (run (run {} as) [.drop (!i), .task (!i)]) bs := rfl
    rw [this]
    exact stuck_run bs hstuck
  constructor
  · rcases (hs true).1 with h | h <;> rw [h] <;> simp [Ended]
  · rcases (hs false).1 with h | h <;> rw [h] <;> simp [Ended]

/-- The case: both ends drop their channels, no end reads between. -/
example : let s := run {} [.send true 1, .drop true, .task true]
    (s.get true).phase = .sentHalt ∧ (s.get false).phase = .live ∧ (s.get false).halt = false := by decide

end Verif.BiChan

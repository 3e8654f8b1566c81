import Verif.HolePunch.Lemmas
/-!
The invariants are kept by every step.
-/
namespace Verif.HolePunch

theorem get_setP {x : Node} {i : Nat} {p p' : Punch} (h : x.ps[i]? = some p) (j : Nat) :
    (x.setP i p').ps[j]? = if j = i then some p' else x.ps[j]? := by
  have hlt := (List.getElem?_eq_some_iff.mp h).1
  unfold Node.setP
  rw [List.getElem?_set]
  by_cases e : i = j
  · subst e
    simp [hlt]
  · rw [if_neg e, if_neg (fun h => e h.symm)]

def Grows (y y' : Node) : Prop := ∀ j i, Got y j i → Got y' j i

theorem grows_setP {x : Node} {i : Nat} {p p' : Punch} (h : x.ps[i]? = some p) (hg : ∀ j, p.got = some j → p'.got = some j) :
    Grows x (x.setP i p') := by
  rintro j k ⟨q, hq, e⟩
  by_cases hj : j = i
  · subst hj
    refine ⟨p', by rw [get_setP h, if_pos rfl], ?_⟩
    rw [h] at hq
    cases hq
    exact hg k e
  · exact ⟨q, by rw [get_setP h, if_neg hj]; exact hq, e⟩

section
variable {R : Nat → Nat → Prop} {s : Bool} {x y : Node} {lock : Option Bool} {value : Option (Nat × Nat)}

/-- Only a puncher changes. -/
theorem Half.punch (h : Half R s x y lock value) {i : Nat} {p p' : Punch}
    (hp : x.ps[i]? = some p) (hg : ∀ j, p.got = some j → p'.got = some j) (hr : ∀ j, p'.got = some j → Rel R s i j) (hs : ∀ j, p'.st = .okay j → Got y j i) :
    Half R s (x.setP i p') y lock value := by
  obtain ⟨h1,h2,h3,h4,h5,h6,h7,h8,h9,h10,h11,h12,h13,h14,h15,h16,h17,h18,h19,h20,h21⟩ := h
  refine ⟨?_,?_,h3,h4,h5,h6,h7,h8,h9,h10,?_,h12,h13,h14,h15,h16,h17,h18,h19,h20,h21⟩
  · intro j q k hq e
    rw [get_setP hp] at hq
    grind
  · intro j q k hq e
    rw [get_setP hp] at hq
    grind
  · have := grows_setP hp hg
    intro l r hc
    rcases h11 l r hc with e | e | e
    · exact .inl e
    · exact .inr (.inl e)
    · exact .inr (.inr ⟨e.1, e.2.1, e.2.2.1, e.2.2.2.1, e.2.2.2.2.1, this _ _ e.2.2.2.2.2⟩)

/-- In the peer only a puncher changes. -/
theorem Half.grow (h : Half R s x y lock value) {i : Nat} {p p' : Punch} (hp : y.ps[i]? = some p)
    (hr : ∀ j, p.got = some j → p'.got = some j) : Half R s x (y.setP i p') lock value := by
  have hg := grows_setP hp hr
  obtain ⟨h1,h2,h3,h4,h5,h6,h7,h8,h9,h10,h11,h12,h13,h14,h15,h16,h17,h18,h19,h20,h21⟩ := h
  refine ⟨h1,?_,?_,?_,h5,h6,h7,h8,h9,h10,h11,h12,h13,h14,h15,?_,?_,h18,h19,h20,h21⟩ <;> grind [Grows]

end

/-- The two views of a state. -/
def Both (R : Nat → Nat → Prop) (s : Bool) (x y : Node) (lock : Option Bool) (value : Option (Nat × Nat)) : Prop :=
  Half R s x y lock value ∧ Half R (!s) y x lock value

theorem Inv.both {R : Nat → Nat → Prop} {w : Net} (h : Inv R w) (s : Bool) :
    Both R s (w.get s) (w.get (!s)) w.lock w.value := by
  refine ⟨h.half s, ?_⟩
  have := h.half (!s)
  rwa [Bool.not_not] at this

theorem Both.inv {R : Nat → Nat → Prop} {w : Net} {s : Bool} (h : Both R s (w.get s) (w.get (!s)) w.lock w.value) : Inv R w :=
  Inv.of s h.1 h.2

/-- All conditions on the changed state, by `grind`. -/
macro "crush" h:ident : tactic => `(tactic| (
  obtain ⟨⟨_,_,_,_,_,_,_,_,_,_,_,_,_,_,_,_,_,_,_,_,_⟩, ⟨_,_,_,_,_,_,_,_,_,_,_,_,_,_,_,_,_,_,_,_,_⟩⟩ := $h:ident
  simp only [Cmd, Won] at *
  constructor <;> constructor <;> (try simp only [Cmd, Won]) <;> grind [RSt.Has, RSt.Holds, Got]))

section
variable {R : Nat → Nat → Prop} {s : Bool} {x y : Node} {lock : Option Bool} {value : Option (Nat × Nat)}

theorem Both.punch (h : Both R s x y lock value) {i : Nat} {p p' : Punch}
    (hp : x.ps[i]? = some p) (hr : ∀ j, p'.got = some j → Rel R s i j) (hs : ∀ j, p'.st = .okay j → Got y j i)
    (hg : ∀ j, p.got = some j → p'.got = some j) : Both R s (x.setP i p') y lock value :=
  ⟨h.1.punch hp hg hr hs, h.2.grow hp hg⟩

/-- A puncher ends. -/
theorem Both.stop (h : Both R s x y lock value) {i : Nat} {p : Punch} {st : PSt}
    (hp : x.ps[i]? = some p) (hs : ∀ j, st = .okay j → Got y j i) : Both R s (x.setP i { p with st := st }) y lock value :=
  h.punch hp (fun j e => h.1.rel i p j hp e) hs (fun _ e => e)

/-- Who holds the mutex is not told to use a socket. -/
theorem Both.free (h : Both R s x y lock value) (hr : x.res.Holds) : x.commanded = none := by
  cases hc : x.commanded with
  | none => rfl
  | some v =>
    obtain ⟨l, r⟩ := v
    have hv := h.1.val hr
    have hl := h.1.lockd.mpr hr
    rcases h.1.cmds l r (.inl hc) with e | e | e
    · rw [hv] at e
      exact absurd e.1 (by simp)
    · have := h.2.lockd.mpr (by rw [e]; trivial)
      rw [hl] at this
      cases s <;> simp at this
    · rw [h.1.done e.1] at hr
      exact hr.elim

theorem Both.rebuiltSome (h : Both R s x y lock value) {i r : Nat} (hk : x.killed = some (i, r)) :
    Both R s { x with rebuilt := x.rebuilt ++ [some (i, r)] } y lock value := by
  crush h

theorem Both.rebuiltNone (h : Both R s x y lock value) {v : Nat × Nat} (hk : x.killed = some v) :
    Both R s { x with rebuilt := x.rebuilt ++ [none] } y lock value := by
  crush h

theorem Both.pushed (h : Both R s x y lock value) {i j : Nat} (hd : x.done = false) (hr : x.res = .idle) (hg : Got y j i) :
    Both R s { x with enq := x.enq ++ [(i, j)], res := .pushed i j } y lock value := by
  crush h

theorem Both.resIdle (h : Both R s x y lock value) (hd : x.done = false) (hr : ¬ x.res.Holds) (he : x.res ≠ .ended) :
    Both R s { x with res := .idle } y lock value := by
  crush h

theorem Both.resDead (h : Both R s x y lock value) (hd : x.done = false) (hr : ¬ x.res.Holds) (he : x.res ≠ .ended) :
    Both R s { x with res := .dead } y lock value := by
  crush h

theorem Both.resEnded (h : Both R s x y lock value) (hr : ¬ x.res.Holds) :
    Both R s { x with res := .ended, reader := false } y lock value := by
  crush h

theorem Both.fails (h : Both R s x y lock value) :
    Both R s { x with failure := true } { y with inbox := y.inbox ++ [.allFailed] } lock value := by
  crush h

theorem Both.waiting (h : Both R s x y lock value) {i j : Nat} (hr : x.res = .pushed i j) :
    Both R s { x with res := .waiting i j } y lock value := by
  crush h

theorem Both.lockSome (h : Both R s x y lock value) {i j : Nat} {v : Nat × Nat} (hr : x.res = .waiting i j) (hv : value = some v) :
    Both R s { x with commanded := some v, res := .idle } y lock value := by
  crush h

theorem Both.lockNone (h : Both R s x y lock value) {i j : Nat} (hr : x.res = .waiting i j) (hv : value = none)
    (hl : lock = none) : Both R s { x with res := .holding i j } y (some s) value := by
  crush h

theorem Both.send (h : Both R s x y lock value) {i j : Nat} (hr : x.res = .holding i j) :
    Both R s { x with res := .sent i j } { y with inbox := y.inbox ++ [.winner j i] } lock value := by
  crush h

theorem Both.win (h : Both R s x y lock value) {i j : Nat} (hr : x.res = .sent i j) (hg : Got y j i) :
    Both R s { x with enq := [], final := some (i, j), done := true, res := .ended } y none (some (j, i)) := by
  have hf := h.free (by rw [hr]; trivial)
  crush h

theorem Both.inbox (h : Both R s x y lock value) {m : Sig} {rest : List Sig} (hi : x.inbox = m :: rest) :
    Both R s { x with inbox := rest } y lock value := by
  crush h

theorem Both.readWinner (h : Both R s x y lock value) {l r : Nat} {rest : List Sig} (hi : x.inbox = .winner l r :: rest)
    (hd : x.done = false) (hrd : x.reader = true) :
    Both R s { x with inbox := rest, commanded := some (l, r) } y lock value := by
  crush h

theorem Both.readerEnds (h : Both R s x y lock value) : Both R s { x with reader := false } y lock value := by
  crush h

theorem Both.readCanEnd (h : Both R s x y lock value) {rest : List Sig} (hi : x.inbox = .canEnd :: rest)
    (hd : x.done = false) (hrd : x.reader = true) :
    Both R s { x with inbox := rest, reader := false, res := .ended } y (if lock = some s then none else lock) value := by
  have hf := h.free
  crush h

theorem Both.kills (h : Both R s x y lock value) {v : Nat × Nat} (hc : x.commanded = some v) :
    Both R s { x with killed := some v } y lock value := by
  crush h

theorem Both.noneEnq (h : Both R s x y lock value) {v : Nat × Nat} (hc : x.commanded = some v) :
    Both R s { x with enq := [] } y lock value := by
  crush h

theorem Both.loses (h : Both R s x y lock value) {i l r : Nat} (hc : x.commanded = some (l, r)) (hd : x.done = false)
    (hg : i = l ∨ Got y r i) :
    Both R s { x with final := some (i, r), done := true, res := .ended } y (if lock = some s then none else lock) value := by
  have hf := h.free
  crush h

theorem Both.pollerEnds (h : Both R s x y lock value) {v : Nat × Nat} (hc : x.commanded = some v) :
    Both R s { x with poller := false } y lock value := by
  crush h

theorem Both.rebuiltRest (h : Both R s x y lock value) {e : Option (Nat × Nat)} {rest : List (Option (Nat × Nat))} (b : Bool)
    (hr : x.rebuilt = e :: rest) : Both R s { x with rebuilt := rest, rebuilder := b } y lock value := by
  crush h

theorem Both.gives (h : Both R s x y lock value) (hd : x.done = false) (hp : x.poller = false) :
    Both R s { x with done := true, res := .ended } y (if lock = some s then none else lock) value := by
  have hf := h.free
  crush h

theorem Both.over (h : Both R s x y lock value) (b : Bool) : Both R s { x with over := b } y lock value := by
  crush h

theorem Both.returns (h : Both R s x y lock value) : Both R s { x with over := true, result := x.final } y lock value := by
  crush h

theorem Both.postCanEnd (h : Both R s x y lock value) (hd : x.done = true) (hc : x.commanded ≠ none) :
    Both R s x { y with inbox := y.inbox ++ [.canEnd] } lock value := by
  crush h

end

end Verif.HolePunch

import Verif.HolePunch.Inv
/-!
Every step keeps the invariants.
-/
namespace Verif.HolePunch

@[simp] theorem Net.get_release (w : Net) (s t : Bool) : (w.release s).get t = w.get t := by
  unfold Net.release
  split <;> cases t <;> rfl
@[simp] theorem Net.lock_release (w : Net) (s : Bool) : (w.release s).lock = if w.lock = some s then none else w.lock := by
  unfold Net.release
  split <;> rfl
@[simp] theorem Net.value_release (w : Net) (s : Bool) : (w.release s).value = w.value := by
  unfold Net.release
  split <;> rfl
@[simp] theorem Net.get_post (w : Net) (s : Bool) (m : Sig) :
    (w.post (!s) m).get (!s) = { w.get (!s) with inbox := (w.get (!s)).inbox ++ [m] } := by
  cases s <;> rfl
@[simp] theorem Net.get_post' (w : Net) (s : Bool) (m : Sig) : (w.post (!s) m).get s = w.get s := by
  cases s <;> rfl
@[simp] theorem Net.lock_post (w : Net) (s : Bool) (m : Sig) : (w.post s m).lock = w.lock := by
  cases s <;> rfl
@[simp] theorem Net.value_post (w : Net) (s : Bool) (m : Sig) : (w.post s m).value = w.value := by
  cases s <;> rfl
@[simp] theorem Net.get_mk (w : Net) (l : Option Bool) (v : Option (Nat × Nat)) (s : Bool) : Net.get ⟨w.a, w.b, l, v⟩ s = w.get s := by
  cases s <;> rfl
@[simp] theorem Net.get_failure (w : Net) (s : Bool) : (w.failure s).get s = { w.get s with failure := true } := by
  cases s <;> rfl
@[simp] theorem Net.get_failure' (w : Net) (s : Bool) :
    (w.failure s).get (!s) = { w.get (!s) with inbox := (w.get (!s)).inbox ++ [.allFailed] } := by
  cases s <;> rfl
@[simp] theorem Net.lock_failure (w : Net) (s : Bool) : (w.failure s).lock = w.lock := by
  cases s <;> rfl
@[simp] theorem Net.value_failure (w : Net) (s : Bool) : (w.failure s).value = w.value := by
  cases s <;> rfl

variable {R : Nat → Nat → Prop} {w : Net}

theorem Both.inv' {s : Bool} {x y : Node} {lock : Option Bool} {value : Option (Nat × Nat)} (h : Both R s x y lock value) {w : Net}
    (h1 : w.get s = x) (h2 : w.get (!s) = y) (h3 : w.lock = lock) (h4 : w.value = value) : Inv R w := by
  subst h1 h2 h3 h4
  exact h.inv

theorem Node.submit_of {x : Node} (h : x.final = none) (v : Nat × Nat) :
    x.submit v = { x with final := some v, done := true, res := .ended } := by
  unfold Node.submit
  rw [h]
  rfl

theorem Half.final {s : Bool} {x y : Node} {lock : Option Bool} {value : Option (Nat × Nat)} (h : Half R s x y lock value)
    (hd : x.done = false) : x.final = none := by
  cases hf : x.final with
  | none => rfl
  | some v =>
    have := h.fin v hf
    rw [hd] at this
    cases this

theorem Inv.failure (h : Inv R w) (s : Bool) : Inv R (w.failure s) :=
  (h.both s).fails.inv' (by simp) (by simp) (by simp) (by simp)

/-- A puncher's socket is enqueued once. -/
structure Neat (x : Node) : Prop where
  taken : ∀ i j, (i, j) ∈ x.enq → ∃ p, x.ps[i]? = some p ∧ p.st = .taken
  fun' : ∀ i j k, (i, j) ∈ x.enq → (i, k) ∈ x.enq → j = k

theorem Neat.congr {x x' : Node} (h : Neat x) (h1 : x'.ps = x.ps) (h2 : x'.enq = x.enq) : Neat x' :=
  ⟨by rw [h1, h2]; exact h.taken, by rw [h2]; exact h.fun'⟩

theorem Neat.clear {x' : Node} (h2 : x'.enq = []) : Neat x' :=
  ⟨by rw [h2]; simp, by rw [h2]; simp⟩

theorem Neat.setP {x : Node} (h : Neat x) {i : Nat} {p p' : Punch} (hp : x.ps[i]? = some p) (ht : p.st = .taken → p'.st = .taken) :
    Neat (x.setP i p') := by
  refine ⟨?_, h.fun'⟩
  intro k j hm
  obtain ⟨q, hq, e⟩ := h.taken k j hm
  rw [get_setP hp]
  grind

theorem Neat.push {x x' : Node} (h : Neat x) {i j : Nat} {p : Punch} (hp : x.ps[i]? = some p) (hs : p.st ≠ .taken)
    (h1 : x'.ps = (x.setP i { p with st := .taken }).ps) (h2 : x'.enq = x.enq ++ [(i, j)]) : Neat x' := by
  obtain ⟨g1, g2⟩ := h
  have hg : ∀ k, x'.ps[k]? = _ := fun k => by rw [h1, get_setP hp]
  constructor
  · intro k l hm
    rw [hg, h2] at *
    grind
  · intro k l l' hm hm'
    rw [h2] at hm hm'
    grind

@[simp] theorem submit_ps (x : Node) (v : Nat × Nat) : (x.submit v).ps = x.ps := by
  unfold Node.submit
  split <;> rfl
@[simp] theorem submit_enq (x : Node) (v : Nat × Nat) : (x.submit v).enq = x.enq := by
  unfold Node.submit
  split <;> rfl

theorem Neat.both {w w' : Net} {s : Bool} (h : ∀ s, Neat (w.get s)) (h1 : Neat (w'.get s))
    (h2 : (w'.get (!s)).ps = (w.get (!s)).ps) (h3 : (w'.get (!s)).enq = (w.get (!s)).enq) : ∀ s, Neat (w'.get s) := by
  intro t
  by_cases e : t = s
  · subst e
    exact h1
  · have : t = !s := by
      cases t <;> cases s <;> simp_all
    subst this
    exact (h _).congr h2 h3

theorem Neat.step {w : Net} (h : ∀ s, Neat (w.get s)) (ev : Ev) : ∀ s, Neat ((w.step ev).get s) := by
  cases ev with
  | syn s i j =>
    simp only [Net.step]
    split
    · rename_i p hp
      split
      · exact Neat.both (s := s) h (by rw [Net.get_set]; exact (h s).setP hp id) (by simp) (by simp)
      · exact h
    · exact h
  | ack s i j =>
    simp only [Net.step]
    split
    · rename_i p q hp hq
      split
      · rename_i hc
        exact Neat.both (s := s) h (by rw [Net.get_set]; exact (h s).setP hp (fun e => by rw [hc.1] at e; cases e)) (by simp) (by simp)
      · exact h
    · exact h
  | fail s i =>
    simp only [Net.step]
    split
    · rename_i p hp
      split
      · rename_i hc
        exact Neat.both (s := s) h (by rw [Net.get_set]; exact (h s).setP hp (fun e => by rw [hc] at e; cases e)) (by simp) (by simp)
      · exact h
    · exact h
  | kill s i =>
    simp only [Net.step]
    split
    · rename_i p l r hp hk
      split
      · rename_i hc
        have hn := fun st => (h s).setP (p' := { p with st := st }) hp (fun e => by rw [hc] at e; cases e)
        split
        · split
          · exact Neat.both (s := s) h (by rw [Net.get_set]; exact (hn _).congr rfl rfl) (by simp) (by simp)
          · exact Neat.both (s := s) h (by rw [Net.get_set]; exact hn _) (by simp) (by simp)
        · exact Neat.both (s := s) h (by rw [Net.get_set]; exact (hn _).congr rfl rfl) (by simp) (by simp)
      · exact h
    · exact h
  | next s i =>
    simp only [Net.step]
    split
    · exact h
    · split
      · exact h
      · rename_i p hp
        have hn := fun st (hs : p.st ≠ .taken) => (h s).setP (p' := { p with st := st }) hp (fun e => absurd e hs)
        split
        · rename_i j hst
          exact Neat.both (s := s) h (by rw [Net.get_set]; exact (h s).push hp (by rw [hst]; simp) rfl rfl) (by simp) (by simp)
        · rename_i hst
          exact Neat.both (s := s) h (by rw [Net.get_set]; exact hn _ (by rw [hst]; simp)) (by simp) (by simp)
        · rename_i hst
          have hn := hn .listed (by rw [hst]; simp)
          split
          · split
            · exact Neat.both (s := s) h (by rw [Net.get_set]; exact hn.congr rfl rfl) (by simp) (by simp)
            · exact Neat.both (s := s) h (by rw [Net.get_failure, Net.get_set]; exact hn.congr rfl rfl) (by simp) (by simp)
          · exact Neat.both (s := s) h (by rw [Net.get_set]; exact hn) (by simp) (by simp)
        · exact h
  | check s =>
    simp only [Net.step]
    split
    · exact Neat.both (s := s) h ((h s).congr (by simp) (by simp)) (by simp) (by simp)
    · exact h
  | lock s =>
    simp only [Net.step]
    split
    · split
      · exact h
      · split <;> exact Neat.both (s := s) h ((h s).congr (by simp) (by simp)) (by simp) (by simp)
    · exact h
  | lockFail s =>
    simp only [Net.step]
    split
    · exact Neat.both (s := s) h ((h s).congr (by simp) (by simp)) (by simp) (by simp)
    · exact h
  | send s =>
    simp only [Net.step]
    split
    · exact Neat.both (s := s) h ((h s).congr (by simp) (by simp)) (by simp) (by simp)
    · exact h
  | win s =>
    simp only [Net.step]
    split
    · split
      · exact Neat.both (s := s) h (Neat.clear (by simp)) (by simp) (by simp)
      · exact Neat.both (s := s) h (Neat.clear (by simp)) (by simp) (by simp)
    · exact h
  | endRes s =>
    simp only [Net.step]
    split
    · exact Neat.both (s := s) h ((h s).congr (by simp) (by simp)) (by simp) (by simp)
    · exact h
  | read s =>
    simp only [Net.step]
    split
    · exact h
    · split
      · exact h
      · split
        · exact Neat.both (s := s) h ((h s).congr (by simp) (by simp)) (by simp) (by simp)
        · split
          · exact Neat.both (s := s) h ((h s).congr (by simp) (by simp)) (by simp) (by simp)
          · exact Neat.both (s := s) h ((h s).congr (by simp) (by simp)) (by simp) (by simp)
        · exact Neat.both (s := s) h ((h s).congr (by simp) (by simp)) (by simp) (by simp)
  | tick s =>
    simp only [Net.step]
    split
    · exact h
    · split
      · exact h
      · split
        · exact Neat.both (s := s) h ((h s).congr (by simp) (by simp)) (by simp) (by simp)
        · split
          · split
            · exact Neat.both (s := s) h (Neat.clear (by simp [Node.setP])) (by simp) (by simp)
            · split <;> exact Neat.both (s := s) h (Neat.clear (by simp)) (by simp) (by simp)
          · split <;> exact Neat.both (s := s) h (Neat.clear (by simp)) (by simp) (by simp)
  | rebuild s =>
    simp only [Net.step]
    split
    · exact h
    · split
      · exact h
      · exact Neat.both (s := s) h ((h s).congr (by simp) (by simp)) (by simp) (by simp)
      · exact Neat.both (s := s) h ((h s).congr (by simp) (by simp)) (by simp) (by simp)
  | bothFailed s =>
    simp only [Net.step]
    split
    · exact h
    · split <;> exact Neat.both (s := s) h ((h s).congr (by simp) (by simp)) (by simp) (by simp)
  | finish s =>
    simp only [Net.step]
    split
    · exact h
    · split
      · split
        · exact h
        · exact Neat.both (s := s) h ((h s).congr (by simp) (by simp)) (by simp) (by simp)
      · exact Neat.both (s := s) h ((h s).congr (by simp) (by simp)) (by simp) (by simp)

theorem Neat.init (n m : Nat) : ∀ s, Neat ((Net.init n m).get s) := by
  intro s
  cases s <;> exact Neat.clear rfl

theorem ReachR.neat {n m : Nat} (h : ReachR R n m w) : ∀ s, Neat (w.get s) := by
  induction h with
  | init => exact Neat.init n m
  | step ev _ _ ih => exact Neat.step ih ev

theorem Inv.syn (h : Inv R w) (s : Bool) (i j : Nat) (ha : (Ev.syn s i j).Along R) : Inv R (w.step (.syn s i j)) := by
  simp only [Net.step]
  split
  · rename_i p hp
    split
    · rename_i hc
      have hb := (h.both s).punch (p' := { p with got := some j }) hp
        (by intro k e; cases e; cases s <;> exact ha)
        (by intro k e; rw [show ({ p with got := some j } : Punch).st = p.st from rfl, hc.1] at e; cases e)
        (by intro k e; rw [hc.2.1] at e; cases e)
      exact hb.inv' (by simp) (by simp) (by simp) (by simp)
    · exact h
  · exact h

theorem Inv.ack (h : Inv R w) (s : Bool) (i j : Nat) : Inv R (w.step (.ack s i j)) := by
  simp only [Net.step]
  split
  · rename_i p q hp hq
    split
    · rename_i hc
      have hb := (h.both s).stop (st := .okay j) hp (by intro k e; cases e; exact ⟨q, hq, hc.2⟩)
      exact hb.inv' (by simp) (by simp) (by simp) (by simp)
    · exact h
  · exact h

theorem Inv.fail (h : Inv R w) (s : Bool) (i : Nat) : Inv R (w.step (.fail s i)) := by
  simp only [Net.step]
  split
  · rename_i p hp
    split
    · have hb := (h.both s).stop (st := .failed) hp (by intro k e; cases e)
      exact hb.inv' (by simp) (by simp) (by simp) (by simp)
    · exact h
  · exact h

theorem Inv.kill (h : Inv R w) (s : Bool) (i : Nat) : Inv R (w.step (.kill s i)) := by
  simp only [Net.step]
  split
  · rename_i p l r hp hk
    split
    · split
      · rename_i hil
        subst hil
        split
        · have hb := ((h.both s).stop (st := .skipped) hp (by intro k e; cases e)).rebuiltSome (i := i) (r := r) hk
          exact hb.inv' (by simp [Node.setP]) (by simp) (by simp) (by simp)
        · have hb := (h.both s).stop (st := .failed) hp (by intro k e; cases e)
          exact hb.inv' (by simp) (by simp) (by simp) (by simp)
      · have hb := ((h.both s).stop (st := .skipped) hp (by intro k e; cases e)).rebuiltNone hk
        exact hb.inv' (by simp [Node.setP]) (by simp) (by simp) (by simp)
    · exact h
  · exact h

theorem Inv.next (h : Inv R w) (s : Bool) (i : Nat) : Inv R (w.step (.next s i)) := by
  simp only [Net.step]
  split
  · exact h
  · rename_i hc
    have hd : (w.get s).done = false := by
      cases hx : (w.get s).done with
      | false => rfl
      | true => exact absurd (.inl hx) hc
    have hr : (w.get s).res = .idle := by
      apply Classical.byContradiction
      intro hx
      exact hc (.inr hx)
    split
    · exact h
    · rename_i p hp
      split
      · rename_i j hst
        have hg := (h.half s).okay i p j hp hst
        have hb := ((h.both s).stop (st := .taken) hp (by intro k e; cases e)).pushed (i := i) (j := j) hd hr hg
        exact hb.inv' (by simp [Node.setP]) (by simp) (by simp) (by simp)
      · have hb := (h.both s).stop (st := .taken) hp (by intro k e; cases e)
        exact hb.inv' (by simp) (by simp) (by simp) (by simp)
      · have hb := (h.both s).stop (st := .listed) hp (by intro k e; cases e)
        split
        · split
          · exact (hb.resDead hd (by rw [show (Node.setP _ _ _).res = (w.get s).res from rfl, hr]; exact id)
              (by rw [show (Node.setP _ _ _).res = (w.get s).res from rfl, hr]; simp)).inv' (by simp) (by simp) (by simp) (by simp)
          · exact Inv.failure (hb.inv' (by simp) (by simp) (by simp) (by simp)) s
        · exact hb.inv' (by simp) (by simp) (by simp) (by simp)
      · exact h

theorem Inv.notDone (h : Inv R w) {s : Bool} (hr : (w.get s).res ≠ .ended) : (w.get s).done = false := by
  cases hx : (w.get s).done with
  | false => rfl
  | true => exact absurd ((h.half s).done hx) hr

theorem Inv.check (h : Inv R w) (s : Bool) : Inv R (w.step (.check s)) := by
  simp only [Net.step]
  split
  · rename_i i j hr
    have hd := h.notDone (s := s) (by rw [hr]; simp)
    split
    · exact ((h.both s).resIdle hd (by rw [hr]; exact id) (by rw [hr]; simp)).inv' (by simp) (by simp) (by simp) (by simp)
    · exact ((h.both s).waiting hr).inv' (by simp) (by simp) (by simp) (by simp)
  · exact h

theorem Inv.lock (h : Inv R w) (s : Bool) : Inv R (w.step (.lock s)) := by
  simp only [Net.step]
  split
  · rename_i i j hr
    split
    · exact h
    · rename_i hl
      have hl : w.lock = none := by
        apply Classical.byContradiction
        exact hl
      split
      · rename_i v hv
        exact ((h.both s).lockSome hr hv).inv' (by simp) (by simp) (by simp) (by simp)
      · rename_i hv
        exact ((h.both s).lockNone hr hv hl).inv' (by cases s <;> rfl) (by cases s <;> rfl) rfl (by simp)
  · exact h

theorem Inv.lockFail (h : Inv R w) (s : Bool) : Inv R (w.step (.lockFail s)) := by
  simp only [Net.step]
  split
  · rename_i i j hr
    have hd := h.notDone (s := s) (by rw [hr]; simp)
    exact ((h.both s).resIdle hd (by rw [hr]; exact id) (by rw [hr]; simp)).inv' (by simp) (by simp) (by simp) (by simp)
  · exact h

theorem Inv.send (h : Inv R w) (s : Bool) : Inv R (w.step (.send s)) := by
  simp only [Net.step]
  split
  · rename_i i j hr
    exact ((h.both s).send hr).inv' (by simp) (by simp) (by simp) (by simp)
  · exact h

theorem Inv.win (h : Inv R w) (s : Bool) (hn : Neat (w.get s)) : Inv R (w.step (.win s)) := by
  simp only [Net.step]
  split
  · rename_i i j hr
    have hd := h.notDone (s := s) (by rw [hr]; simp)
    have hf := (h.half s).final hd
    have hc := (h.both s).free (by rw [hr]; trivial)
    have hm := (h.half s).mem i j hc (by rw [hr]; exact ⟨rfl, rfl⟩)
    have hl := (h.half s).lockd.mpr (by rw [hr]; trivial)
    split
    · rename_i sock hs
      have hsm := List.mem_reverse.mp (List.mem_of_find?_eq_some hs)
      have hsp := List.find?_some hs
      obtain ⟨i', j'⟩ := sock
      have hsp : i' = i := by simpa using hsp
      subst hsp
      have := hn.fun' _ _ _ hsm hm
      subst this
      rw [Node.submit_of (by exact hf)]
      exact ((h.both s).win hr ((h.half s).enq _ _ hm)).inv' (by simp) (by simp) (by simp [hl]) rfl
    · rename_i hs
      rw [List.find?_eq_none] at hs
      have := hs (i, j) (List.mem_reverse.mpr hm)
      simp at this
  · exact h

theorem Inv.endRes (h : Inv R w) (s : Bool) : Inv R (w.step (.endRes s)) := by
  simp only [Net.step]
  split
  · rename_i hc
    exact ((h.both s).resEnded (by rw [hc.1]; exact id)).inv' (by simp) (by simp) (by simp) (by simp)
  · exact h

theorem Inv.read (h : Inv R w) (s : Bool) : Inv R (w.step (.read s)) := by
  simp only [Net.step]
  split
  · exact h
  · rename_i hc
    have hd : (w.get s).done = false := by
      cases hx : (w.get s).done with
      | false => rfl
      | true => exact absurd (.inl hx) hc
    have hrd : (w.get s).reader = true := by
      cases hx : (w.get s).reader with
      | true => rfl
      | false => exact absurd (.inr hx) hc
    split
    · exact h
    · rename_i m rest hi
      split
      · exact ((h.both s).readWinner hi hd hrd).inv' (by simp) (by simp) (by simp) (by simp)
      · split
        · exact (((h.both s).inbox hi).readerEnds).inv' (by simp) (by simp) (by simp) (by simp)
        · exact Inv.failure (((h.both s).inbox hi).inv' (by simp) (by simp) (by simp) (by simp)) s
      · exact ((h.both s).readCanEnd hi hd hrd).inv' (by simp) (by simp) (by simp) (by simp)

theorem Inv.tick (h : Inv R w) (s : Bool) : Inv R (w.step (.tick s)) := by
  simp only [Net.step]
  split
  · exact h
  · rename_i hc
    have hd : (w.get s).done = false := by
      cases hx : (w.get s).done with
      | false => rfl
      | true => exact absurd (.inl hx) hc
    split
    · exact h
    · rename_i l r hcm
      have hb := (h.both s).kills hcm
      have hf := (h.half s).final hd
      have hb' := hb.noneEnq hcm
      split
      · rename_i sock hs
        have hm := List.mem_reverse.mp (List.mem_of_find?_eq_some hs)
        have hp := List.find?_some hs
        obtain ⟨i, j⟩ := sock
        have hp : j = r := by simpa using hp
        subst hp
        rw [Node.submit_of (by exact hf)]
        exact (hb.loses hcm hd (.inr ((h.half s).enq _ _ hm))).inv' (by simp) (by simp) (by simp) (by simp)
      · split
        · rename_i p hp
          split
          · have hb2 := (hb'.stop (st := .taken) hp (by intro k e; cases e)).loses hcm hd (i := l) (.inl rfl)
            rw [Node.submit_of (by exact hf)]
            exact hb2.inv' (by simp [Node.setP]) (by simp) (by simp) (by simp)
          · split
            · exact (hb'.pollerEnds hcm).inv' (by simp) (by simp) (by simp) (by simp)
            · exact hb'.inv' (by simp) (by simp) (by simp) (by simp)
        · split
          · exact (hb'.pollerEnds hcm).inv' (by simp) (by simp) (by simp) (by simp)
          · exact hb'.inv' (by simp) (by simp) (by simp) (by simp)

theorem Inv.rebuild (h : Inv R w) (s : Bool) : Inv R (w.step (.rebuild s)) := by
  simp only [Net.step]
  split
  · exact h
  · rename_i hc
    have hd : (w.get s).done = false := by
      cases hx : (w.get s).done with
      | false => rfl
      | true => exact absurd (.inl hx) hc
    have hf := (h.half s).final hd
    split
    · exact h
    · rename_i sock rest hr
      obtain ⟨i, j⟩ := sock
      have hk := (h.half s).rebuilt i j (by rw [hr]; exact List.mem_cons_self ..)
      have hcm := (h.half s).killed _ hk
      rw [Node.submit_of (by exact hf)]
      exact (((h.both s).rebuiltRest (w.get s).rebuilder hr).loses hcm hd (.inl rfl)).inv' (by simp) (by simp) (by simp) (by simp)
    · rename_i rest hr
      exact ((h.both s).rebuiltRest (!(w.get s).allListed) hr).inv' (by simp) (by simp) (by simp) (by simp)

theorem Inv.bothFailed (h : Inv R w) (s : Bool) : Inv R (w.step (.bothFailed s)) := by
  simp only [Net.step]
  split
  · exact h
  · rename_i hc
    have hd : (w.get s).done = false := by
      cases hx : (w.get s).done with
      | false => rfl
      | true => exact absurd (.inl hx) hc
    have hp : (w.get s).poller = false := by
      cases hx : (w.get s).poller with
      | false => rfl
      | true => exact absurd (.inr (.inl hx)) hc
    split
    · exact (((h.both s).gives hd hp).over true).inv' (by simp) (by simp) (by simp) (by simp)
    · exact ((h.both s).fails.gives hd hp).inv' (by simp) (by simp) (by simp) (by simp)

theorem Inv.finish (h : Inv R w) (s : Bool) : Inv R (w.step (.finish s)) := by
  simp only [Net.step]
  split
  · exact h
  · rename_i hc
    have hd : (w.get s).done = true := by
      cases hx : (w.get s).done with
      | true => rfl
      | false => exact absurd (.inl hx) hc
    split
    · split
      · exact h
      · rename_i m rest hi
        exact (((h.both s).inbox hi).returns).inv' (by simp) (by simp) (by simp) (by simp)
    · rename_i v hv
      exact ((h.both s).returns.postCanEnd hd (by rw [show Node.commanded _ = (w.get s).commanded from rfl, hv]; simp)).inv'
        (by simp) (by simp) (by simp) (by simp)

theorem Inv.step (h : Inv R w) (ev : Ev) (ha : ev.Along R) (hn : ∀ s, Neat (w.get s)) : Inv R (w.step ev) := by
  cases ev with
  | syn s i j => exact h.syn s i j ha
  | ack s i j => exact h.ack s i j
  | fail s i => exact h.fail s i
  | kill s i => exact h.kill s i
  | next s i => exact h.next s i
  | check s => exact h.check s
  | lock s => exact h.lock s
  | lockFail s => exact h.lockFail s
  | send s => exact h.send s
  | win s => exact h.win s (hn s)
  | endRes s => exact h.endRes s
  | read s => exact h.read s
  | tick s => exact h.tick s
  | rebuild s => exact h.rebuild s
  | bothFailed s => exact h.bothFailed s
  | finish s => exact h.finish s

theorem Inv.init (n m : Nat) : Inv R (Net.init n m) := by
  apply Inv.of false
  · constructor <;> simp [Net.init, Net.get, RSt.Has, RSt.Holds, Cmd, List.getElem?_replicate] <;> grind
  · constructor <;> simp [Net.init, Net.get, RSt.Has, RSt.Holds, Cmd, List.getElem?_replicate] <;> grind

theorem ReachR.inv {n m : Nat} (h : ReachR R n m w) : Inv R w := by
  induction h with
  | init => exact Inv.init n m
  | step ev hr ha ih => exact ih.step ev ha hr.neat

theorem Reach.any {n m : Nat} (h : Reach n m w) : ReachR (fun _ _ => True) n m w := by
  induction h with
  | init => exact .init
  | step ev _ ih =>
    refine .step ev ih ?_
    cases ev with
    | syn s i j => cases s <;> trivial
    | _ => trivial

theorem ReachR.reach {n m : Nat} (h : ReachR R n m w) : Reach n m w := by
  induction h with
  | init => exact .init
  | step ev _ _ ih => exact .step ev ih

end Verif.HolePunch

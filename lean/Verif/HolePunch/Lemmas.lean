import Verif.HolePunch.Spec
/-!
Invariants of an attempt.
-/
namespace Verif.HolePunch

def Rel (R : Nat → Nat → Prop) (s : Bool) (i j : Nat) : Prop := if s then R j i else R i j

def Got (y : Node) (j i : Nat) : Prop := ∃ q, y.ps[j]? = some q ∧ q.got = some i

def RSt.Has : RSt → Nat → Nat → Prop
  | .pushed a b, i, j | .waiting a b, i, j | .holding a b, i, j | .sent a b, i, j => a = i ∧ b = j
  | _, _, _ => False

def RSt.Holds : RSt → Prop
  | .holding _ _ | .sent _ _ => True
  | _ => False

/-- `x` is told to use the socket. -/
def Cmd (x : Node) (l r : Nat) : Prop := x.commanded = some (l, r) ∨ .winner l r ∈ x.inbox

def Won (x y : Node) (value : Option (Nat × Nat)) (l r : Nat) : Prop :=
  (value = some (l, r) ∧ y.final = some (r, l) ∧ y.commanded = none) ∨ y.res = .sent r l ∨
    (x.done = true ∧ y.res = .ended ∧ y.reader = false ∧ y.commanded = none ∧ y.done = false ∧ Got x l r)

structure Half (R : Nat → Nat → Prop) (s : Bool) (x y : Node) (lock : Option Bool) (value : Option (Nat × Nat)) : Prop where
  rel : ∀ i p j, x.ps[i]? = some p → p.got = some j → Rel R s i j
  okay : ∀ i p j, x.ps[i]? = some p → p.st = .okay j → Got y j i
  enq : ∀ i j, (i, j) ∈ x.enq → Got y j i
  cur : ∀ i j, x.res.Has i j → Got y j i
  mem : ∀ i j, x.commanded = none → x.res.Has i j → (i, j) ∈ x.enq
  done : x.done = true → x.res = .ended
  fin : ∀ v, x.final = some v → x.done = true
  resu : ∀ v, x.result = some v → x.final = some v
  lockd : lock = some s ↔ x.res.Holds
  val : x.res.Holds → value = none
  cmds : ∀ l r, Cmd x l r → Won x y value l r
  killed : ∀ v, x.killed = some v → x.commanded = some v
  rebuilt : ∀ i j, some (i, j) ∈ x.rebuilt → x.killed = some (i, j)
  quiet : x.killed = none → x.rebuilt = []
  alive : x.commanded = none → x.poller = true
  f1 : ∀ i j l r, x.final = some (i, j) → x.commanded = some (l, r) → j = r ∧ (i = l ∨ Got y r i)
  f2 : ∀ i j, x.final = some (i, j) → x.commanded = none → value = some (j, i) ∧ Got y j i
  canEnd : .canEnd ∈ x.inbox → y.done = true ∧ y.commanded ≠ none
  ok : x.panicked = false ∧ x.twice = false
  vset : ∀ l r, value = some (l, r) → (x.final = some (r, l) ∧ x.commanded = none) ∨ (y.final = some (r, l) ∧ y.commanded = none)
  uniq : ∀ v v', x.final = some v → y.final = some v' → x.commanded = none → y.commanded = none → False

structure Inv (R : Nat → Nat → Prop) (w : Net) : Prop where
  half : ∀ s, Half R s (w.get s) (w.get (!s)) w.lock w.value

@[simp] theorem Net.get_set (w : Net) (s : Bool) (x : Node) : (w.set s x).get s = x := by
  cases s <;> rfl
@[simp] theorem Net.get_set' (w : Net) (s : Bool) (x : Node) : (w.set s x).get (!s) = w.get (!s) := by
  cases s <;> rfl
@[simp] theorem Net.get_set'' (w : Net) (s : Bool) (x : Node) : (w.set (!s) x).get s = w.get s := by
  cases s <;> rfl
@[simp] theorem Net.set_lock (w : Net) (s : Bool) (x : Node) : (w.set s x).lock = w.lock := by
  cases s <;> rfl
@[simp] theorem Net.set_value (w : Net) (s : Bool) (x : Node) : (w.set s x).value = w.value := by
  cases s <;> rfl

theorem Inv.of {R : Nat → Nat → Prop} {w : Net} (s : Bool) (h1 : Half R s (w.get s) (w.get (!s)) w.lock w.value)
    (h2 : Half R (!s) (w.get (!s)) (w.get s) w.lock w.value) : Inv R w := by
  constructor
  intro t
  by_cases e : t = s
  · subst e
    exact h1
  · have : t = !s := by
      cases t <;> cases s <;> simp_all
    subst this
    rw [Bool.not_not]
    exact h2

end Verif.HolePunch

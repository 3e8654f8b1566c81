/-
Both users ask once and nobody accepts, every queue in order: for given passwords and cids the worlds are finitely many,
and are computed; by renaming this settles all passwords and cids.
-/
import Verif.PeerKex.Rename
import Verif.PeerKex.Simple

namespace Verif.PeerKex

/-- Client `i` asks. -/
def Act.connects (i : Side) : Act → Bool
  | .connect j _ => i == j
  | _ => false

/-- No queue is taken out of order; the users only ask, with their passwords. -/
def Act.inOrder (pa pb : Nat) : Act → Bool
  | .connect .a p => p == pa
  | .connect .b p => p == pb
  | .serve _ k => k == 0
  | .deliver _ k => k == 0
  | .punched _ _ _ => true
  | _ => false

/-- All that can happen in a world. -/
def moves (pa pb : Nat) (w : World) : List Act :=
  [.serve .a 0, .serve .b 0, .deliver .a 0, .deliver .b 0] ++
  ((w.a.punches.map fun p => .punched .a p.n false) ++ (w.a.punches.map fun p => .punched .a p.n true)) ++
  ((w.b.punches.map fun p => .punched .b p.n false) ++ (w.b.punches.map fun p => .punched .b p.n true)) ++
  (if w.a.psk.isNone then [.connect .a pa] else []) ++ (if w.b.psk.isNone then [.connect .b pb] else [])

/-- Equality, with what differs first. -/
def same (v w : World) : Bool :=
  v.next == w.next && v.upA.length == w.upA.length && v.upB.length == w.upB.length &&
    v.downA.length == w.downA.length && v.downB.length == w.downB.length && decide (v = w)

theorem same_eq {v w : World} (h : same v w = true) : v = w := by
  unfold same at h
  simp only [Bool.and_eq_true, decide_eq_true_eq] at h
  exact h.2

def explore (pa pb : Nat) : Nat → List World → List World → List World
  | 0, seen, _ => seen
  | _ + 1, seen, [] => seen
  | n + 1, seen, w :: ws =>
    let ns := (moves pa pb w).foldl (fun acc t =>
      let v := step w t
      if seen.any (same v) || acc.any (same v) then acc else v :: acc) []
    explore pa pb n (ns ++ seen) (ns ++ ws)

def worlds (pa pb : Nat) : List World := explore pa pb 400 [start 1 2] [start 1 2]

/-- What is to be seen of every world. -/
def good (eq : Bool) (w : World) : Bool :=
  decide (w.a.me = 1 ∧ w.a.peer = 2 ∧ w.b.me = 2 ∧ w.b.peer = 1) &&
  (w.a.made.isEmpty || w.b.made.isEmpty || decide (w.a.made = w.b.made)) &&
  (decide (w.a.made.length ≤ 1) && decide (w.b.made.length ≤ 1)) &&
  (eq || w.a.made.isEmpty && w.b.made.isEmpty) &&
  (!eq || !(w.upA.isEmpty && w.upB.isEmpty && w.downA.isEmpty && w.downB.isEmpty && w.a.punches.isEmpty &&
      w.b.punches.isEmpty && w.a.psk.isSome && w.b.psk.isSome) ||
    match w.a.vconn with
    | none => false
    | some v => v.active && decide (w.b.vconn = some v) && w.a.told.elem (.channel v.key v.id) &&
        w.b.told.elem (.channel v.key v.id))

/-- The worlds are closed under what can happen, only asks set passwords, and all are good. -/
def checked (pa pb : Nat) (L : List World) : Bool :=
  L.any (same (start 1 2)) &&
  L.all fun w => good (pa == pb) w && (moves pa pb w).all fun t =>
    let v := step w t
    L.any (same v) && (t.connects .a || v.a.psk.isNone == w.a.psk.isNone) &&
      (t.connects .b || v.b.psk.isNone == w.b.psk.isNone)

set_option maxRecDepth 100000 in
theorem checked_00 : checked 0 0 (worlds 0 0) = true := by decide +kernel
set_option maxRecDepth 100000 in
theorem checked_11 : checked 1 1 (worlds 1 1) = true := by decide +kernel
set_option maxRecDepth 100000 in
theorem checked_01 : checked 0 1 (worlds 0 1) = true := by decide +kernel
set_option maxRecDepth 100000 in
theorem checked_10 : checked 1 0 (worlds 1 0) = true := by decide +kernel
set_option maxRecDepth 100000 in
theorem checked_12 : checked 1 2 (worlds 1 2) = true := by decide +kernel

end Verif.PeerKex

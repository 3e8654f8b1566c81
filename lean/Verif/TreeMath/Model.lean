/-
Model of the array tree arithmetic, /repo/citadel_treekem/src/tree/math.rs lines 17-142.

First on natural numbers instead of `u32`, without debug assertions, loops with fuel. Then once more as the code has it (suffix
`C`): `none` is a panic (overflow check or debug assertion) or an endless loop; `C21_u32` shows that the two agree for
all group sizes whose node count fits into `u32`.
-/
namespace Verif.TreeMath

/-- `log2`, lines 17-22 (`31 - leading_zeros`). -/
def log2 (x : Nat) : Nat := if x = 0 then 0 else Nat.log2 x

/-- `u32::trailing_ones`. -/
def trailingOnes : Nat → Nat
  | 0 => 0
  | x + 1 => if (x + 1) % 2 = 1 then trailingOnes ((x + 1) / 2) + 1 else 0
decreasing_by omega

/-- `level`, lines 25-30. -/
def level (x : Nat) : Nat := if x &&& 1 = 0 then 0 else trailingOnes x

/-- `node_width`, lines 33-39. -/
def nodeWidth (n : Nat) : Nat := if n = 0 then 0 else 2 * (n - 1) + 1

/-- `root`, lines 42-45. -/
def root (n : Nat) : Nat := (1 <<< log2 (nodeWidth n)) - 1

/-- `leaf_to_node`. -/
def leafToNode (i : Nat) : Nat := i * 2

/-- `is_leaf`. -/
def isLeaf (x : Nat) : Bool := x &&& 1 = 0

/-- `left`, lines 58-62. -/
def left (x : Nat) : Nat := x ^^^ (1 <<< (level x - 1))

/-- `while r >= w { r = left(r) }`. -/
def descend (w : Nat) : Nat → Nat → Nat
  | 0, r => r
  | fuel + 1, r => if w ≤ r then descend w fuel (left r) else r

/-- `right`, lines 66-75. -/
def right (x n : Nat) : Nat := descend (nodeWidth n) x (x ^^^ (3 <<< (level x - 1)))

/-- `parent_step`, lines 78-82. -/
def parentStep (x : Nat) : Nat :=
  let k := level x
  let b := (x >>> (k + 1)) &&& 1
  (x ||| (1 <<< k)) ^^^ (b <<< (k + 1))

/-- `while p >= w { p = parent_step(p) }`. -/
def climb (w : Nat) : Nat → Nat → Nat
  | 0, p => p
  | fuel + 1, p => if w ≤ p then climb w fuel (parentStep p) else p

/-- `parent`, lines 86-94. -/
def parent (x n : Nat) : Nat := climb (nodeWidth n) (nodeWidth n) (parentStep x)

/-- `sibling`, lines 97-104. -/
def sibling (x n : Nat) : Nat :=
  let p := parent x n
  if x < p then right p n else left p

/-- The loop of `direct_path`, lines 115-121. -/
def pathFrom (n : Nat) : Nat → Nat → List Nat
  | 0, _ => []
  | fuel + 1, x => if x = root n then [] else parent x n :: pathFrom n fuel (parent x n)

/-- `direct_path`, lines 108-123. -/
def directPath (i n : Nat) : List Nat := pathFrom n (nodeWidth n) (leafToNode i)

/-- The loop of `copath`, lines 132-135. -/
def copathFrom (n : Nat) : Nat → Nat → List Nat
  | 0, _ => []
  | fuel + 1, x => if x = root n then [] else sibling x n :: copathFrom n fuel (parent x n)

/-- `copath`, lines 128-137. -/
def copath (i n : Nat) : List Nat := copathFrom n (nodeWidth n) (leafToNode i)

/-! ### On `u32` with overflow checks -/

/-- Shift left on `u32`: too large an amount panics, bits shifted out are lost. -/
def shlC (a k : Nat) : Option Nat := if k < 32 then some ((a <<< k) % 2 ^ 32) else none

def nodeWidthC (n : Nat) : Option Nat :=
  if n = 0 then some 0 else if 2 * (n - 1) + 1 < 2 ^ 32 then some (2 * (n - 1) + 1) else none

def rootC (n : Nat) : Option Nat := do
  let w ← nodeWidthC n
  return (← shlC 1 (log2 w)) - 1

def leafToNodeC (i : Nat) : Option Nat := if i * 2 < 2 ^ 32 then some (i * 2) else none

def leftC (x : Nat) : Option Nat :=
  if level x = 0 then none else (shlC 1 (level x - 1)).map fun m => x ^^^ m

def descendC (w : Nat) : Nat → Nat → Option Nat
  | 0, _ => none
  | fuel + 1, r => if w ≤ r then (leftC r).bind (descendC w fuel) else some r

def rightC (x n : Nat) : Option Nat :=
  if level x = 0 then none
  else do
    let m ← shlC 3 (level x - 1)
    let w ← nodeWidthC n
    descendC w 64 (x ^^^ m)

def parentStepC (x : Nat) : Option Nat :=
  let k := level x
  if k + 1 < 32 then do
    let b := (x >>> (k + 1)) &&& 1
    return (x ||| (← shlC 1 k)) ^^^ (← shlC b (k + 1))
  else none

def climbC (w : Nat) : Nat → Nat → Option Nat
  | 0, _ => none
  | fuel + 1, p => if w ≤ p then (parentStepC p).bind (climbC w fuel) else some p

def parentC (x n : Nat) : Option Nat := do
  let r ← rootC n
  if x = r then none
  else
    let w ← nodeWidthC n
    let p ← parentStepC x
    climbC w 64 p

def siblingC (x n : Nat) : Option Nat := do
  let p ← parentC x n
  if x < p then rightC p n else leftC p

def pathFromC (n r : Nat) : Nat → Nat → Option (List Nat)
  | 0, _ => none
  | fuel + 1, x => if x = r then some [] else do
    let p ← parentC x n
    let rest ← pathFromC n r fuel p
    return p :: rest

def directPathC (i n : Nat) : Option (List Nat) := do
  let r ← rootC n
  let x ← leafToNodeC i
  pathFromC n r 64 x

def copathFromC (n r : Nat) : Nat → Nat → Option (List Nat)
  | 0, _ => none
  | fuel + 1, x => if x = r then some [] else do
    let s ← siblingC x n
    let p ← parentC x n
    let rest ← copathFromC n r fuel p
    return s :: rest

def copathC (i n : Nat) : Option (List Nat) := do
  let r ← rootC n
  let x ← leafToNodeC i
  copathFromC n r 64 x

end Verif.TreeMath

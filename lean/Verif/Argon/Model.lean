/-!
# How the costs of a password hash are tuned

Source: `citadel_crypt/src/argon/autotuner.rs:68-162` (`calculate_optimal_argon_params`),
`citadel_crypt/src/argon/argon_container.rs:328-332` (the least memory to begin with).

Simplifications.  Core Lean only.  Divisions of `f32` are those of natural numbers (exact while the
memory in KiB is below `2^24`); a division by a minimum of zero is infinite, or not a number, as in
`f32`.  The number of rounds and the passes are not bounded by `u32`.  What a hash takes, in
milliseconds, or that it fails, is given for each round, memory and number of passes.
-/

namespace Verif.Argon

/-- What a hash with a memory and a number of passes takes in a round, if it does not fail. -/
abbrev Clock := Nat → Nat → Nat → Option Nat

/-- `DEFAULT_MEM_COST` of a release build. -/
def defaultMem : Nat := 1024 * 64

/-- `std::cmp::max(available_memory_kb / 2, DEFAULT_MEM_COST as u64)` -/
def startMem (freeKb : Nat) : Nat := max (freeKb / 2) defaultMem

/-- `mem_cost as u32` -/
def low (mem : Nat) : Nat := mem % 2 ^ 32

/-- The memory of the next round when this one took too long. -/
def lessMem (minimum mem elapsed : Nat) : Nat :=
  if minimum = 0 then
    -- `0 / 0` is not greater than two; what is not zero is infinitely often over
    if elapsed = 0 then mem - mem / 5 else 0
  else
    let timesOver := (elapsed + minimum - 1) / minimum
    if 2 < timesOver then mem - (mem - mem / timesOver) else mem - mem / 5

inductive Status where
  | trying (round mem time : Nat) (tuned : Bool)
  /-- The settings that are returned. -/
  | done (mem time : Nat)
  | failed
  deriving DecidableEq, Repr

/-- One round of the loop. -/
def next (c : Clock) (minimum : Nat) : Status → Status
  | .trying n mem time tuned =>
    match c n (low mem) time with
    | none => .failed
    | some elapsed =>
      if tuned then
        if minimum ≤ elapsed then .done (low mem) time
        else .trying (n + 1) mem (time + 1) true
      else if elapsed < minimum / 2 then .trying (n + 1) mem (time + 1) true
      else .trying (n + 1) (lessMem minimum mem elapsed) time false
  | s => s

/-- After some rounds. -/
def after (c : Clock) (minimum start : Nat) : Nat → Status
  | 0 => .trying 0 start 1 false
  | n + 1 => next c minimum (after c minimum start n)

end Verif.Argon

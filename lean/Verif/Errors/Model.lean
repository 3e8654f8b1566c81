/-!
The messages of errors (`citadel_io/src/error/mod.rs`, `citadel_io_macros/src/lib.rs`): the scan of a form at compile time that
counts its placeholders, and the scan when the error is shown that fills them.

Texts are lists of bytes (`Nat`, each below 256 where it matters), as both scans look at `as_bytes()`. Simplifications: the
formatter does not fail (it writes to a `String`), and the arguments are the texts that their `Display` gives.
-/
namespace Verif.Errors

abbrev Text := List Nat

/-- `b'{'` -/
def ob : Nat := 123
/-- `b'}'` -/
def cb : Nat := 125

/-- The byte at an index, if there is one: `i < bytes.len()` with `bytes[i]`. -/
abbrev at? (t : Text) (i : Nat) : Option Nat := t[i]?

/-- `count_placeholders`, lib.rs:113-140, from the index on; `none` is a compile error. -/
def countFrom (t : Text) (i count : Nat) : Option Nat :=
  match h : at? t i with
  | none => some count
  | some b =>
    if b = ob then
      if at? t (i + 1) = some ob then countFrom t (i + 2) count
      else if at? t (i + 1) = some cb then countFrom t (i + 2) (count + 1)
      else none
    else if b = cb then
      if at? t (i + 1) = some cb then countFrom t (i + 2) count
      else none
    else countFrom t (i + 1) count
termination_by t.length - i
decreasing_by
  all_goals
    have : i < t.length := by
      rcases Nat.lt_or_ge i t.length with h1 | h1
      · exact h1
      · simp [at?, List.getElem?_eq_none h1] at h
    omega

def countPlaceholders (t : Text) : Option Nat := countFrom t 0 0

/-- `str::is_char_boundary`: the end, or a byte that does not continue a character. -/
def boundary (t : Text) (i : Nat) : Bool :=
  match at? t i with
  | none => i == t.length
  | some b => !(128 ≤ b && b < 192)

/-- `&template[a..b]`; `none` is a panic. -/
def slice (t : Text) (a b : Nat) : Option Text :=
  if a ≤ b ∧ boundary t a ∧ boundary t b then some ((t.drop a).take (b - a)) else none

/-- The loop of `render`, mod.rs:117-155: `i`, `run_start`, `arg_idx` and what is written; `none` is a panic. -/
def renderFrom (t : Text) (args : List Text) (i run k : Nat) (out : Text) : Option Text :=
  match h : at? t i with
  | none => (slice t run t.length).map (out ++ ·)
  | some b =>
    if b = ob ∧ at? t (i + 1) = some ob then
      match slice t run i with
      | none => none
      | some s => renderFrom t args (i + 2) (i + 2) k (out ++ s ++ [ob])
    else if b = ob ∧ at? t (i + 1) = some cb then
      match slice t run i with
      | none => none
      | some s =>
        match args[k]? with
        | some a => renderFrom t args (i + 2) (i + 2) (k + 1) (out ++ s ++ a)
        | none => renderFrom t args (i + 2) (i + 2) k (out ++ s ++ [ob, cb])
    else if b = cb ∧ at? t (i + 1) = some cb then
      match slice t run i with
      | none => none
      | some s => renderFrom t args (i + 2) (i + 2) k (out ++ s ++ [cb])
    else renderFrom t args (i + 1) run k out
termination_by t.length - i
decreasing_by
  all_goals
    have : i < t.length := by
      rcases Nat.lt_or_ge i t.length with h1 | h1
      · exact h1
      · simp [at?, List.getElem?_eq_none h1] at h
    omega

def render (t : Text) (args : List Text) : Option Text := renderFrom t args 0 0 0 []

/-- `NetworkError`: the code gives the form; the arguments are `None` when there are none (`from_parts`, 62-80). -/
structure Err where
  code : Nat
  args : Option (List Text)
  deriving DecidableEq, Repr

/-- `from_parts`, mod.rs:62-80. (The number of arguments is checked by `error!` at compile time and, in debug builds, here.) -/
def fromParts (code : Nat) (args : List Text) : Err := ⟨code, if args.isEmpty then none else some args⟩

/-- `Display`, mod.rs:104-112, where `form` is `raw_string` of the registry. -/
def display (form : Nat → Text) (e : Err) : Option Text :=
  match e.args with
  | none => some (form e.code)
  | some args => render (form e.code) args

/-- `PartialEq`, mod.rs:171-175. -/
def same (e f : Err) : Bool := e.code == f.code

end Verif.Errors

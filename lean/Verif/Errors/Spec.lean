import Verif.Errors.Model
/-!
What a form says, apart from how the two scans read it: a form is the writing of a list of pieces, and to fill it is to put the
arguments in the places of the slots.
-/
namespace Verif.Errors

inductive Piece
  /-- a byte of the text -/
  | lit (b : Nat)
  /-- `{{`, for the character `{` -/
  | open'
  /-- `}}`, for the character `}` -/
  | close
  /-- `{}` -/
  | slot
  deriving DecidableEq, Repr

/-- How a piece is written in a form. -/
def Piece.text : Piece → Text
  | .lit b => [b]
  | .open' => [ob, ob]
  | .close => [cb, cb]
  | .slot => [ob, cb]

def text (ps : List Piece) : Text := ps.flatMap Piece.text

/-- The bytes of the text are not braces. -/
def Piece.plain : Piece → Prop
  | .lit b => b ≠ ob ∧ b ≠ cb
  | _ => True

def Plain (ps : List Piece) : Prop := ∀ p ∈ ps, p.plain

/-- The number of slots. -/
def slots (ps : List Piece) : Nat := (ps.filter (· = .slot)).length

/-- The message: every slot has its argument, in order; a slot for which there is none stays as it is written. -/
def fill : List Piece → List Text → Text
  | [], _ => []
  | .lit b :: ps, as => b :: fill ps as
  | .open' :: ps, as => ob :: fill ps as
  | .close :: ps, as => cb :: fill ps as
  | .slot :: ps, a :: as => a ++ fill ps as
  | .slot :: ps, [] => [ob, cb] ++ fill ps []

/-- A Rust `str`: the bytes of whole characters. -/
inductive Utf8 : Text → Prop
  | nil : Utf8 []
  | one {a t} : a < 128 → Utf8 t → Utf8 (a :: t)
  | two {a b t} : 192 ≤ a → a < 224 → 128 ≤ b → b < 192 → Utf8 t → Utf8 (a :: b :: t)
  | three {a b c t} : 224 ≤ a → a < 240 → 128 ≤ b → b < 192 → 128 ≤ c → c < 192 → Utf8 t → Utf8 (a :: b :: c :: t)
  | four {a b c d t} : 240 ≤ a → a < 248 → 128 ≤ b → b < 192 → 128 ≤ c → c < 192 → 128 ≤ d → d < 192 → Utf8 t →
      Utf8 (a :: b :: c :: d :: t)

end Verif.Errors

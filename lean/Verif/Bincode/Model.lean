import Verif.Common.Bytes
/-!
`citadel_user/src/serialization.rs`: how values are written and read. The program configures the `bincode` library (1.3.3); what the
library does with that configuration is part of the model, from its documentation.

* `type_to_bytes`, `serialize_into_buf` (211-216, 158-171): `bincode::serialize`: integers of fixed width, little-endian.
* `limited_options` (103-109): the same with a limit of as many bytes as the input has; trailing bytes are allowed.
* `bytes_to_type` (197-209): reads a slice. `deserialize_from_owned_vector` (126-144): reads through `std::io::Read`.

Two readers differ in when they allocate the bytes of a string: the slice reader looks first whether they are there; the other one
makes the buffer first. A sequence whose length is read makes room for that many elements, but for not more than 1 MiB (serde's
`size_hint::cautious`), and grows with the elements after that.

Simplifications: a structure is nested pairs; a map is a sequence of pairs; `char` and floats are left out; growing a vector takes
the memory of the new elements.
-/
namespace Verif.Bincode

/-- The shapes of values. -/
inductive Ty
  | unit
  /-- so many bytes -/
  | int (n : Nat)
  | bool
  | option (t : Ty)
  /-- a string or a byte buffer; `valid`: UTF-8, or anything -/
  | blob (valid : Bytes → Bool)
  | pair (a b : Ty)
  /-- the variants by their numbers -/
  | enum (n : Nat) (f : Nat → Ty)
  | seq (t : Ty)

/-- The values of a shape. Lengths are `u64`, the number of a variant is `u32`. -/
def Val : Ty → Type
  | .unit => Unit
  | .int n => { x : Nat // x < 256 ^ n }
  | .bool => Bool
  | .option t => Option (Val t)
  | .blob valid => { b : Bytes // b.length < 256 ^ 8 ∧ valid b = true }
  | .pair a b => Val a × Val b
  | .enum n f => (i : { i : Nat // i < n ∧ i < 256 ^ 4 }) × Val (f i.1)
  | .seq t => { l : List (Val t) // l.length < 256 ^ 8 }

/-- `to_le_bytes`, `from_le_bytes`. -/
def toLE (n x : Nat) : Bytes := (toBE n x).reverse
def fromLE (b : Bytes) : Nat := fromBE b.reverse

/-- `bincode::serialize`. -/
def encode : (t : Ty) → Val t → Bytes
  | .unit, _ => []
  | .int n, x => toLE n x.1
  | .bool, b => match b with
    | true => [1]
    | false => [0]
  | .option t, o => match o with
    | none => [0]
    | some v => 1 :: encode t v
  | .blob _, b => toLE 8 b.1.length ++ b.1
  | .pair a b, v => encode a v.1 ++ encode b v.2
  | .enum _ f, v => toLE 4 v.1.1 ++ encode (f v.1.1) v.2
  | .seq t, l => toLE 8 l.1.length ++ (l.1.map (encode t)).flatten

/-- A deserializer: the bytes to come, what the limit leaves (`none`: no limit), how much memory was asked for, and how many
elements of sequences were begun. -/
structure St where
  rest : Bytes
  lim : Option Nat := none
  alloc : Nat := 0
  steps : Nat := 0
  deriving DecidableEq, Repr

/-- How it reads: `io`, through `std::io::Read`; the memory of one element of a sequence. -/
structure Conf where
  io : Bool
  size : Ty → Nat

/-- `size_hint::cautious`: at most 1 MiB. -/
def cautious (len size : Nat) : Nat := min len (2 ^ 20 / size)

/-- `limit().add(n)`. -/
def charge (n : Nat) (s : St) : Option St :=
  match s.lim with
  | none => some s
  | some l => if n ≤ l then some { s with lim := some (l - n) } else none

/-- The next bytes of the input. -/
def takeN (n : Nat) (s : St) : Option (Bytes × St) :=
  if n ≤ s.rest.length then some (s.rest.take n, { s with rest := s.rest.drop n }) else none

/-- An integer: the limit, then the bytes. -/
def readInt (n : Nat) (s : St) : Option Nat × St :=
  match charge n s with
  | none => (none, s)
  | some s1 =>
    match takeN n s1 with
    | none => (none, s1)
    | some (b, s2) => (some (fromLE b), s2)

/-- So many elements, with room for `room` of them. -/
def readMany {α : Type} (f : St → Option α × St) (size : Nat) : Nat → Nat → St → Option (List α) × St
  | 0, _, s => (some [], s)
  | n + 1, room, s =>
    match f { s with steps := s.steps + 1 } with
    | (none, s1) => (none, s1)
    | (some a, s1) =>
      let s2 := if room = 0 then { s1 with alloc := s1.alloc + size } else s1
      match readMany f size n (room - 1) s2 with
      | (none, s3) => (none, s3)
      | (some l, s3) => (some (a :: l), s3)

/-- `Deserialize`. -/
def decode (c : Conf) : (t : Ty) → St → Option (Val t) × St
  | .unit, s => (some (), s)
  | .int n, s =>
    match readInt n s with
    | (some x, s1) => (if h : x < 256 ^ n then some ⟨x, h⟩ else none, s1)
    | (none, s1) => (none, s1)
  | .bool, s =>
    match readInt 1 s with
    | (some 0, s1) => (some false, s1)
    | (some 1, s1) => (some true, s1)
    | (_, s1) => (none, s1)
  | .option t, s =>
    match readInt 1 s with
    | (some 0, s1) => (some none, s1)
    | (some 1, s1) =>
      match decode c t s1 with
      | (some v, s2) => (some (some v), s2)
      | (none, s2) => (none, s2)
    | (_, s1) => (none, s1)
  | .blob valid, s =>
    match readInt 8 s with
    | (none, s1) => (none, s1)
    | (some len, s1) =>
      match charge len s1 with
      | none => (none, s1)
      | some s2 =>
        let s3 := if c.io then { s2 with alloc := s2.alloc + len } else s2
        match takeN len s3 with
        | none => (none, s3)
        | some (b, s4) =>
          let s5 := if c.io then s4 else { s4 with alloc := s4.alloc + len }
          (if h : b.length < 256 ^ 8 ∧ valid b = true then some ⟨b, h⟩ else none, s5)
  | .pair a b, s =>
    match decode c a s with
    | (none, s1) => (none, s1)
    | (some x, s1) =>
      match decode c b s1 with
      | (none, s2) => (none, s2)
      | (some y, s2) => (some (x, y), s2)
  | .enum n f, s =>
    match readInt 4 s with
    | (none, s1) => (none, s1)
    | (some i, s1) =>
      if h : i < n ∧ i < 256 ^ 4 then
        match decode c (f i) s1 with
        | (none, s2) => (none, s2)
        | (some v, s2) => (some ⟨⟨i, h⟩, v⟩, s2)
      else (none, s1)
  | .seq t, s =>
    match readInt 8 s with
    | (none, s1) => (none, s1)
    | (some len, s1) =>
      let room := cautious len (c.size t)
      match readMany (decode c t) (c.size t) len room { s1 with alloc := s1.alloc + room * c.size t } with
      | (none, s2) => (none, s2)
      | (some l, s2) => (if h : l.length < 256 ^ 8 then some ⟨l, h⟩ else none, s2)

/-- `bincode::deserialize`: a slice, no limit. -/
def plain (size : Ty → Nat) (t : Ty) (input : Bytes) : Option (Val t) := (decode ⟨false, size⟩ t { rest := input }).1

/-- `deserialize_from_vector`. -/
def fromVector (size : Ty → Nat) (t : Ty) (input : Bytes) : Option (Val t) :=
  (decode ⟨false, size⟩ t { rest := input, lim := some input.length }).1

/-- `deserialize_from_owned_vector`. -/
def fromOwned (size : Ty → Nat) (t : Ty) (input : Bytes) : Option (Val t) :=
  (decode ⟨true, size⟩ t { rest := input, lim := some input.length }).1

end Verif.Bincode

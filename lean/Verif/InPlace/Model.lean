/-!
# Encryption in the buffer of the packet

Sources:

* `citadel_pqcrypto/src/bytes_in_place.rs:42-89` (`InPlaceBuffer`: a window of a buffer, given to the
  cipher as an `aead::Buffer`), `131-133` (`truncate` of a `Vec`);
* `citadel_pqcrypto/src/lib.rs:713-738` (`protect_packet_in_place`), `741-781`
  (`validate_packet_in_place`), `788-830` (`encrypt_in_place`, `decrypt_in_place`), `658-673`
  (`encrypt`, which works on a `Vec` of its own).

Simplifications.  Core Lean only.  A byte is a number; the nonce is part of the cipher.  The methods
`encrypt_in_place` and `decrypt_in_place` of the `aead` crate are those of its traits: encrypt what
`as_mut` gives and append the tag; split `as_mut` at `len` less the length of the tag, decrypt, and
`truncate`.  A cipher that refuses leaves the bytes as they are.
-/

namespace Verif.InPlace

abbrev Bytes := List Nat

structure Aead where
  tagLen : Nat
  /-- From associated data and message: the ciphertext, and the tag. -/
  enc : Bytes → Bytes → Bytes × Bytes
  dec : Bytes → Bytes → Bytes → Option Bytes

/-- `InPlaceBuffer` -/
structure Buf where
  inner : Bytes
  lo : Nat
  hi : Nat
  deriving DecidableEq, Repr

inductive Res (α : Type) where
  | ok (a : α)
  | err
  | panic
  deriving DecidableEq, Repr

/-- `InPlaceBuffer::new` -/
def Buf.new (inner : Bytes) (capacity lo hi : Nat) : Option Buf :=
  if capacity < hi then none else some ⟨inner, lo, hi⟩

/-- `Buffer::len` -/
def Buf.len (b : Buf) : Nat := b.inner.length

/-- `as_ref`, `as_mut`: the slice of the window, which panics out of range. -/
def Buf.view (b : Buf) : Option Bytes :=
  if b.lo ≤ b.hi ∧ b.hi ≤ b.inner.length then some ((b.inner.take b.hi).drop b.lo) else none

/-- What is written through `as_mut`. -/
def Buf.write (b : Buf) (v : Bytes) : Buf :=
  { b with inner := b.inner.take b.lo ++ v ++ b.inner.drop b.hi }

/-- `extend_from_slice` -/
def Buf.extend (b : Buf) (v : Bytes) : Buf :=
  { b with
    inner := b.inner ++ v
    hi := b.hi + v.length }

/-- `truncate` -/
def Buf.truncate (b : Buf) (n : Nat) : Buf :=
  { b with
    inner := b.inner.take n
    hi := n }

/-- `AeadInPlace::encrypt_in_place` on a window. -/
def sealWin (c : Aead) (ad : Bytes) (b : Buf) : Res Buf :=
  match b.view with
  | none => .panic
  | some v => .ok ((b.write (c.enc ad v).1).extend (c.enc ad v).2)

/-- `AeadInPlace::decrypt_in_place` on a window; the tag is taken as an array of fixed length. -/
def openWin (c : Aead) (ad : Bytes) (b : Buf) : Res Buf :=
  if b.len < c.tagLen then .err
  else
    match b.view with
    | none => .panic
    | some v =>
      let pos := b.len - c.tagLen
      if v.length < pos then .panic
      else if (v.drop pos).length ≠ c.tagLen then .panic
      else
        match c.dec ad (v.take pos) (v.drop pos) with
        | none => .err
        | some m => .ok ((b.write (m ++ v.drop pos)).truncate pos)

/-- The same on a `Vec`, as in `encrypt` and `decrypt`. -/
def sealVec (c : Aead) (ad : Bytes) (v : Bytes) : Bytes := (c.enc ad v).1 ++ (c.enc ad v).2

def openVec (c : Aead) (ad : Bytes) (v : Bytes) : Option Bytes :=
  if v.length < c.tagLen then none
  else c.dec ad (v.take (v.length - c.tagLen)) (v.drop (v.length - c.tagLen))

/-- `encrypt_in_place` of the crate, on a buffer with a capacity. -/
def sealBuf (key : Option Aead) (ad buf : Bytes) (capacity : Nat) : Res Bytes :=
  match Buf.new buf capacity 0 buf.length with
  | none => .err
  | some b =>
    match key with
    | none => .err
    | some c =>
      match sealWin c ad b with
      | .ok b' => .ok b'.inner
      | .err => .err
      | .panic => .panic

/-- `decrypt_in_place` -/
def openBuf (key : Option Aead) (ad buf : Bytes) (capacity : Nat) : Res Bytes :=
  match Buf.new buf capacity 0 buf.length with
  | none => .err
  | some b =>
    match key with
    | none => .err
    | some c =>
      match openWin c ad b with
      | .ok b' => .ok b'.inner
      | .err => .err
      | .panic => .panic

/-- `protect_packet_in_place`: what it returns, and the packet afterwards.  `room` is the capacity
of the payload beyond its length. -/
def protect (key : Option Aead) (pid : Bytes) (headerLen : Nat) (packet : Bytes) (room : Nat) :
    Res Unit × Bytes :=
  if packet.length < headerLen then (.panic, packet)
  else
    let header := packet.take headerLen
    let payload := packet.drop headerLen ++ pid
    match sealBuf key header payload (payload.length + room) with
    | .ok p => (.ok (), header ++ p)
    | .err => (.err, header)
    | .panic => (.panic, header)

/-- `validate_packet_in_place`: what it returns, and the payload afterwards. -/
def validate (key : Option Aead) (fresh : Bytes → Bool) (header payload : Bytes) (room : Nat) :
    Res Unit × Bytes :=
  match openBuf key header payload (payload.length + room) with
  | .err => (.err, payload)
  | .panic => (.panic, payload)
  | .ok p =>
    if p.length < 8 then (.err, p)
    else if fresh (p.drop (p.length - 8)) then (.ok (), p.take (p.length - 8))
    else (.err, p)

end Verif.InPlace

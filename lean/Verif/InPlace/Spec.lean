import Verif.InPlace.Model

/-! What encryption in place is to do (C252-C255). -/

namespace Verif.InPlace

/-- A cipher: it keeps lengths, and what is encrypted is decrypted. -/
structure Cipher (c : Aead) : Prop where
  length : ∀ ad m, (c.enc ad m).1.length = m.length
  tag : ∀ ad m, (c.enc ad m).2.length = c.tagLen
  back : ∀ ad m, c.dec ad (c.enc ad m).1 (c.enc ad m).2 = some m
  decLength : ∀ ad v t m, c.dec ad v t = some m → m.length = v.length

/-- What a program may do to a buffer of the `aead` crate: truncation is to no more than `len`. -/
inductive Op where
  | write (f : Bytes → Bytes)
  | extend (v : Bytes)
  | truncate (n : Nat)

/-- On a plain vector. -/
def Op.onVec (v : Bytes) : Op → Bytes
  | .write f => f v
  | .extend w => v ++ w
  | .truncate n => v.take n

/-- On a window; a write that is out of range panics. -/
def Op.onBuf (b : Buf) : Op → Option Buf
  | .write f => b.view.map fun v => b.write (f v)
  | .extend w => some (b.extend w)
  | .truncate n => some (b.truncate n)

/-- Writes keep the length, and nothing is truncated to more than there is. -/
def Op.Fair (v : Bytes) : Op → Prop
  | .write f => ∀ w, (f w).length = w.length
  | .extend _ => True
  | .truncate n => n ≤ v.length

/-- All operations of a list, on a vector and on a window. -/
def vecs (v : Bytes) : List Op → Bytes
  | [] => v
  | o :: os => vecs (o.onVec v) os

def bufs (b : Buf) : List Op → Option Buf
  | [] => some b
  | o :: os => (o.onBuf b).bind fun b' => bufs b' os

def AllFair (v : Bytes) : List Op → Prop
  | [] => True
  | o :: os => o.Fair v ∧ AllFair (o.onVec v) os

/-- The laws a buffer owes to the cipher: what it shows is as long as it says. -/
def Lawful (b : Buf) : Prop := ∃ v, b.view = some v ∧ v.length = b.len

end Verif.InPlace

import Mathlib.Tactic.Ring
import Mathlib.Data.List.Induction
/-!
Big-endian integers on byte lists (`to_be_bytes`, `from_be_bytes`, `put_u32`, `put_u64`, `BigEndian::read_u64`).
-/
namespace Verif

abbrev Bytes := List UInt8

/-- The `len`-byte big-endian encoding of `n` (truncating, as a cast does). -/
def toBE : Nat → Nat → Bytes
  | 0, _ => []
  | len + 1, n => toBE len (n / 256) ++ [UInt8.ofNat n]

/-- The number whose big-endian encoding is `l`. -/
def fromBE (l : Bytes) : Nat := l.foldl (fun a b => a * 256 + b.toNat) 0

@[simp] theorem length_toBE (len n : Nat) : (toBE len n).length = len := by
  induction len generalizing n with
  | zero => rfl
  | succ len ih => simp [toBE, ih]

theorem fromBE_append_singleton (l : Bytes) (b : UInt8) : fromBE (l ++ [b]) = fromBE l * 256 + b.toNat := by
  simp [fromBE]

theorem fromBE_toBE_mod (len n : Nat) : fromBE (toBE len n) = n % 256 ^ len := by
  induction len generalizing n with
  | zero => simp [toBE, fromBE, Nat.mod_one]
  | succ len ih =>
    rw [toBE, fromBE_append_singleton, ih]
    have h1 : (UInt8.ofNat n).toNat = n % 256 := by simp
    rw [h1, Nat.pow_succ, Nat.mul_comm (256 ^ len) 256, Nat.mod_mul]
    ring

theorem fromBE_toBE {len n : Nat} (h : n < 256 ^ len) : fromBE (toBE len n) = n := by
  rw [fromBE_toBE_mod, Nat.mod_eq_of_lt h]

theorem fromBE_lt (l : Bytes) : fromBE l < 256 ^ l.length := by
  induction l using List.reverseRecOn with
  | nil => simp [fromBE]
  | append_singleton l b ih =>
    rw [fromBE_append_singleton, List.length_append, List.length_singleton, Nat.pow_succ]
    have := b.toNat_lt
    omega

theorem toBE_fromBE (l : Bytes) : toBE l.length (fromBE l) = l := by
  induction l using List.reverseRecOn with
  | nil => rfl
  | append_singleton l b ih =>
    rw [List.length_append, List.length_singleton, toBE, fromBE_append_singleton]
    have hb := b.toNat_lt
    have h1 : (fromBE l * 256 + b.toNat) / 256 = fromBE l := by omega
    have h2 : UInt8.ofNat (fromBE l * 256 + b.toNat) = b := by
      apply UInt8.toNat_inj.1
      simp only [UInt8.toNat_ofNat']
      omega
    rw [h1, h2, ih]

/-- Splitting a list at the end of a known prefix. -/
theorem take_append_len {α : Type} (a b : List α) : (a ++ b).take a.length = a := by simp
theorem drop_append_len {α : Type} (a b : List α) : (a ++ b).drop a.length = b := by simp

end Verif

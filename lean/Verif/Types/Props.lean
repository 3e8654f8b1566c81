import Verif.Types.Model
import Mathlib.Tactic.Tauto

/-! Properties C20, C48, C49. -/
namespace Verif.Types
open Verif

/-- What it means for a parameter choice to be usable, in words: hybrid encryption needs the ML-KEM key exchange and a
signature scheme. -/
def Usable (p : CryptoParameters) : Prop := p.enc = .mlKemHybrid → p.kem = .mlKem ∧ p.sig ≠ .none

/-- **C20 (encode, decode).** Every usable choice survives the byte, and an unusable one is refused on decoding. -/
theorem C20_roundtrip (p : CryptoParameters) :
    (Usable p → tryFromByte (pack p) = some p) ∧ (¬ Usable p → tryFromByte (pack p) = none) := by
  obtain ⟨e, k, s⟩ := p
  cases e <;> cases k <;> cases s <;> simp +decide [Usable]

/-- **C20 (decode, encode).** Every byte that decodes gives a usable choice that encodes to the same byte. -/
theorem C20_decode_sound (b : BitVec 8) (p : CryptoParameters) (h : tryFromByte b = some p) :
    Usable p ∧ pack p = b := by
  have key : ∀ b : BitVec 8, ∀ p, tryFromByte b = some p → pack p = b := by
    intro b
    have : ∀ b : BitVec 8, (match tryFromByte b with | some p => decide (pack p = b) | none => true) = true := by
      decide +kernel
    intro p hp
    have := this b
    rw [hp] at this
    simpa using this
  refine ⟨?_, key b p h⟩
  have h1 := key b p h
  by_contra hc
  have := (C20_roundtrip p).2 hc
  rw [h1, h] at this
  cases this

/-- **C20 (injective).** Different usable choices have different bytes. -/
theorem C20_injective (p q : CryptoParameters) (hp : Usable p) (hq : Usable q) (h : pack p = pack q) : p = q := by
  have h1 := (C20_roundtrip p).1 hp
  have h2 := (C20_roundtrip q).1 hq
  rw [h, h2] at h1
  exact (Option.some.inj h1).symm

/-- **C20 (security levels).** A level's byte value survives conversion back and forth, for every byte. -/
theorem C20_security_level (v : BitVec 8) (l : SecurityLevel) :
    (SecurityLevel.ofByte v).value = v ∧ (SecurityLevel.ofByte l.value).value = l.value := by
  have key : ∀ v : BitVec 8, (SecurityLevel.ofByte v).value = v := by decide +kernel
  exact ⟨key v, key _⟩

example : Usable ⟨.mlKemHybrid, .mlKem, .fnDsa512⟩ ∧ ¬ Usable ⟨.mlKemHybrid, .mlKem, .none⟩ := by
  simp [Usable]
example : tryFromByte 0x22 = some ⟨.mlKemHybrid, .mlKem, .fnDsa512⟩ ∧ tryFromByte 0x20 = none := by decide

theorem compare_fold (this other : Bytes) (n : Nat) :
    (List.range n).foldl (compareStep this other) 0 ≤ n ∧
    ((List.range n).foldl (compareStep this other) 0 = n ↔
      ∀ i < n, ∃ a, this[i]? = some a ∧ other[i]? = some a) := by
  induction n with
  | zero => simp
  | succ n ih =>
    rw [List.range_succ, List.foldl_append]
    simp only [List.foldl_cons, List.foldl_nil]
    generalize (List.range n).foldl (compareStep this other) 0 = c at ih
    have hs : compareStep this other c n =
        c + (if ∃ a, this[n]? = some a ∧ other[n]? = some a then 1 else 0) := by
      unfold compareStep
      cases h1 : this[n]? with
      | none => simp
      | some a =>
        cases h2 : other[n]? with
        | none => simp
        | some b =>
          by_cases hab : a = b
          · simp [hab]
          · have : ¬ b = a := fun h => hab h.symm
            simp [hab, this]
    rw [hs]
    by_cases h : ∃ a, this[n]? = some a ∧ other[n]? = some a
    · simp only [h, if_true]
      refine ⟨by omega, ?_⟩
      constructor
      · intro he i hi
        by_cases hin : i < n
        · exact ih.2.1 (by omega) i hin
        · have : i = n := by omega
          rw [this]; exact h
      · intro ha
        have := ih.2.2 (fun i hi => ha i (by omega))
        omega
    · simp only [h, if_false]
      refine ⟨by omega, ?_⟩
      constructor
      · intro he; omega
      · intro ha; exact absurd (ha n (by omega)) h

/-- **C48.** The constant-time comparison is equality of byte strings. -/
theorem C48_compare_is_equality (this other : Bytes) : constTimeCompare this other = true ↔ this = other := by
  unfold constTimeCompare
  have h := compare_fold this other this.length
  simp only [Bool.and_eq_true, beq_iff_eq]
  constructor
  · rintro ⟨h1, h2⟩
    have hall := h.2.1 h1
    apply List.ext_getElem?
    intro i
    by_cases hi : i < this.length
    · obtain ⟨a, e1, e2⟩ := hall i hi
      rw [e1, e2]
    · rw [List.getElem?_eq_none (by omega), List.getElem?_eq_none (by omega)]
  · rintro rfl
    have : ∀ i < this.length, ∃ a, this[i]? = some a ∧ this[i]? = some a := by
      intro i hi; exact ⟨this[i], by simp [hi], by simp [hi]⟩
    have := h.2.2 this
    exact ⟨this, this⟩

example : constTimeCompare [1, 2] [1, 2, 3] = false ∧ constTimeCompare [] [] = true ∧
    constTimeCompare [1, 2, 3] [1, 2] = false := by decide

/-- The documented rule for one field: length in bytes within inclusive bounds. -/
def WithinBytes (lo hi : Nat) (s : String) : Prop := lo ≤ s.utf8ByteSize ∧ s.utf8ByteSize ≤ hi

/-- **C49.** Credentials are accepted exactly when every length (in UTF-8 bytes) is within the configured inclusive
bounds and neither username nor password contains a space (a missing password is not checked). -/
theorem C49_check_iff (r : CredentialRequirements) (username : String) (password : Option String) (fullName : String) :
    check r username password fullName = .ok () ↔
      (WithinBytes r.minUsername r.maxUsername username ∧ ' ' ∉ username.toList) ∧
      (∀ p, password = some p → WithinBytes r.minPassword r.maxPassword p ∧ ' ' ∉ p.toList) ∧
      WithinBytes r.minName r.maxName fullName := by
  have hsp : ∀ s : String, containsSpace s = true ↔ ' ' ∈ s.toList := by
    intro s; simp [containsSpace]
  have hp : checkPassword r password = .ok () ↔
      (∀ p, password = some p → WithinBytes r.minPassword r.maxPassword p ∧ ' ' ∉ p.toList) := by
    cases password with
    | none => simp [checkPassword]
    | some p =>
      simp only [checkPassword, Option.some.injEq, forall_eq', WithinBytes, ← hsp]
      split
      · rename_i h; simp at h; simp; omega
      · rename_i h; simp at h
        split
        · rename_i h2; simp [h2]
        · rename_i h2; simp [h2]; omega
  rw [← hp]
  simp only [check, WithinBytes, ← hsp]
  split
  · rename_i h; simp at h; simp; omega
  · rename_i h; simp at h
    split
    · rename_i h2; simp [h2]
    · rename_i h2
      cases hc : checkPassword r password with
      | error e => simp
      | ok u =>
        simp only [h2]
        split
        · rename_i h3; simp at h3; simp; omega
        · rename_i h3; simp at h3; simp; omega

/-- Credentials on the boundary are accepted, one byte more is refused. -/
example : check defaultRequirements "abc" (some "1234567") "ab" = .ok () ∧
    check defaultRequirements "ab" (some "1234567") "ab" = .error .usernameLength ∧
    check defaultRequirements "abc" (some "12345678901234567") "ab" = .ok () ∧
    check defaultRequirements "abc" (some "123456789012345678") "ab" = .error .passwordLength := by
  decide +kernel

/-- What a node with the default requirements accepts. -/
theorem C49_default_iff (username : String) (password : Option String) (fullName : String) :
    check defaultRequirements username password fullName = .ok () ↔
      (3 ≤ username.utf8ByteSize ∧ username.utf8ByteSize ≤ 37 ∧ ' ' ∉ username.toList) ∧
      (∀ p, password = some p → 7 ≤ p.utf8ByteSize ∧ p.utf8ByteSize ≤ 17 ∧ ' ' ∉ p.toList) ∧
      2 ≤ fullName.utf8ByteSize ∧ fullName.utf8ByteSize ≤ 77 := by
  rw [C49_check_iff]
  simp only [WithinBytes, defaultRequirements, and_assoc]

/-- The documentation counts characters ("Username: 3-37 characters"), the code counts bytes: a two-character
username is accepted. -/
theorem C49_counterexample_characters :
    "éé".length = 2 ∧ check defaultRequirements "éé" none "ab" = .ok () := by decide +kernel

end Verif.Types

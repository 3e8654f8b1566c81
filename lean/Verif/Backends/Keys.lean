import Verif.Backends.Model
/-
Decimal cids, BIGINT cids, and the keys of the Redis store.
-/
namespace Verif.Backends
open Verif

theorem dec_ne_nil (c : Cid) : dec c ≠ [] := Nat.toDigits_ne_nil

theorem digit_of_mem {c : Cid} {x : Char} (h : x ∈ dec c) : x.isDigit = true :=
  Nat.isDigit_of_mem_toDigits (by decide) (by decide) h

theorem dot_not_mem (c : Cid) : '.' ∉ dec c := fun h => by
  have := digit_of_mem h; revert this; decide

theorem ofDigits_dec (c : Cid) : Nat.ofDigitChars 10 (dec c) 0 = c.toNat :=
  Nat.ofDigitChars_toDigits (by decide) (by decide)

@[simp] theorem undec_dec (c : Cid) : undec (dec c) = some c := by
  have h1 : (dec c).all Char.isDigit = true := List.all_eq_true.mpr fun x hx => digit_of_mem hx
  have h2 : Nat.ofDigitChars 10 (dec c) 0 < 2 ^ 64 := by rw [ofDigits_dec]; exact c.toNat_lt
  unfold undec
  rw [if_pos ⟨dec_ne_nil c, h1, h2⟩, ofDigits_dec, UInt64.ofNat_toNat]

theorem dec_inj {a b : Cid} (h : dec a = dec b) : a = b := by
  have := congrArg undec h
  simpa using this

@[simp] theorem dec_eq_iff {a b : Cid} : dec a = dec b ↔ a = b := ⟨dec_inj, fun h => h ▸ rfl⟩

@[simp] theorem i64IntoU64_u64IntoI64 (x : UInt64) : i64IntoU64 (u64IntoI64 x) = x := by
  unfold i64IntoU64 u64IntoI64
  rw [UInt64.toUInt64_toInt64]
  exact UInt64.sub_add_cancel _ _

@[simp] theorem u64IntoI64_i64IntoU64 (x : Int64) : u64IntoI64 (i64IntoU64 x) = x := by
  simp [i64IntoU64, u64IntoI64]

@[simp] theorem readCid_bindCid (v : Variant) (c : Cid) : readCid (bindCid v c) = some c := by
  cases v <;> simp [bindCid, readCid]

theorem bindCid_inj {v : Variant} {a b : Cid} (h : bindCid v a = bindCid v b) : a = b := by
  have := congrArg readCid h
  simpa using this

@[simp] theorem bindCid_eq_iff {v : Variant} {a b : Cid} : bindCid v a = bindCid v b ↔ a = b :=
  ⟨bindCid_inj, fun h => h ▸ rfl⟩

/-- Two texts split at their first dot. -/
theorem split_dot {a b x y : Str} (ha : '.' ∉ a) (hb : '.' ∉ b) (h : a ++ '.' :: x = b ++ '.' :: y) :
    a = b ∧ x = y := by
  induction a generalizing b with
  | nil =>
    cases b with
    | nil => simpa using h
    | cons c b => simp at h; exact absurd h.1 fun e => hb (e ▸ List.mem_cons_self)
  | cons c a ih =>
    cases b with
    | nil => simp at h; exact absurd h.1 fun e => ha (e ▸ List.mem_cons_self)
    | cons d b =>
      simp only [List.cons_append, List.cons.injEq] at h
      obtain ⟨h1, h2⟩ := ih (fun m => ha (List.mem_cons_of_mem _ m)) (fun m => hb (List.mem_cons_of_mem _ m)) h.2
      exact ⟨by rw [h.1, h1], h2⟩

theorem byteMapKey_inj {s p s' p' : Cid} {k k' : Str} (h : byteMapKey s p k = byteMapKey s' p' k') :
    s = s' ∧ p = p' ∧ k = k' := by
  unfold byteMapKey at h
  have h := List.append_cancel_left h
  simp only [List.cons.injEq, true_and] at h
  obtain ⟨h1, h2⟩ := split_dot (dot_not_mem s) (dot_not_mem s') h
  obtain ⟨h3, h4⟩ := split_dot (dot_not_mem p) (dot_not_mem p') h2
  exact ⟨dec_inj h1, dec_inj h3, h4⟩

@[simp] theorem byteMapKey_eq {s p s' p' : Cid} {k k' : Str} :
    byteMapKey s p k = byteMapKey s' p' k' ↔ s = s' ∧ p = p' ∧ k = k' :=
  ⟨byteMapKey_inj, fun ⟨a, b, c⟩ => by rw [a, b, c]⟩

@[simp] theorem peerCidKey_eq {a b : Cid} : peerCidKey a = peerCidKey b ↔ a = b := by
  simp [peerCidKey]

@[simp] theorem peerUsernameKey_eq {a b : Cid} : peerUsernameKey a = peerUsernameKey b ↔ a = b := by
  simp [peerUsernameKey]

@[simp] theorem cidToUsernameKey_eq {a b : Cid} : cidToUsernameKey a = cidToUsernameKey b ↔ a = b := by
  simp [cidToUsernameKey]

@[simp] theorem usernameKey_eq {a b : Str} : usernameKey a = usernameKey b ↔ a = b := by
  simp [usernameKey]

/-- The kind of a key, read off its characters. -/
def kind (k : Str) : Nat :=
  match k with
  | 'u' :: _ => 1
  | 'b' :: _ => 2
  | 'p' :: 'e' :: 'e' :: 'r' :: 's' :: '_' :: 'f' :: 'o' :: 'r' :: '.' :: 'c' :: _ => 3
  | 'p' :: 'e' :: 'e' :: 'r' :: 's' :: '_' :: 'f' :: 'o' :: 'r' :: '.' :: 'u' :: _ => 4
  | 'c' :: 'i' :: _ => 5
  | 'c' :: 'l' :: 'i' :: 'e' :: 'n' :: 't' :: 's' :: '.' :: 'i' :: _ => 6
  | 'c' :: 'l' :: 'i' :: 'e' :: 'n' :: 't' :: 's' :: '.' :: 'p' :: _ => 7
  | _ => 0

@[simp] theorem kind_usernameKey (u : Str) : kind (usernameKey u) = 1 := by
  unfold usernameKey usernamePrefix; rfl
@[simp] theorem kind_byteMapKey (s p : Cid) (k : Str) : kind (byteMapKey s p k) = 2 := by
  unfold byteMapKey byteMapPrefix; rfl
@[simp] theorem kind_peerCidKey (c : Cid) : kind (peerCidKey c) = 3 := by
  unfold peerCidKey peerCidPrefix; rfl
@[simp] theorem kind_peerUsernameKey (c : Cid) : kind (peerUsernameKey c) = 4 := by
  unfold peerUsernameKey peerUsernamePrefix; rfl
@[simp] theorem kind_cidToUsernameKey (c : Cid) : kind (cidToUsernameKey c) = 5 := by
  unfold cidToUsernameKey cidToUsername; rfl
@[simp] theorem kind_impersonalKey : kind impersonalKey = 6 := by
  unfold impersonalKey; rfl
@[simp] theorem kind_personalKey : kind personalKey = 7 := by
  unfold personalKey; rfl
@[simp] theorem kind_cnacKey : kind cnacKey = 0 := by
  unfold cnacKey; rfl

theorem ne_of_kind {a b : Str} (h : kind a ≠ kind b) : a ≠ b := fun e => h (e ▸ rfl)

end Verif.Backends

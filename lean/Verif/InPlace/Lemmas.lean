import Verif.InPlace.Spec

namespace Verif.InPlace

/-- The window of a whole buffer. -/
def whole (v : Bytes) : Buf := ⟨v, 0, v.length⟩

theorem view_whole (v : Bytes) : (whole v).view = some v := by
  simp [whole, Buf.view]

theorem write_whole (v w : Bytes) : (whole v).write w = ⟨w, 0, v.length⟩ := by
  simp [whole, Buf.write]

theorem onBuf_whole (v : Bytes) (o : Op) (h : o.Fair v) :
    o.onBuf (whole v) = some (whole (o.onVec v)) := by
  cases o with
  | write f =>
    simp only [Op.onBuf, Op.onVec, view_whole, Option.map_some, write_whole]
    rw [whole, h v]
  | extend w => simp [Op.onBuf, Op.onVec, whole, Buf.extend]
  | truncate n =>
    simp only [Op.Fair] at h
    simp [Op.onBuf, Op.onVec, whole, Buf.truncate, Nat.min_eq_left h]

theorem bufs_whole : ∀ (os : List Op) (v : Bytes), AllFair v os →
    bufs (whole v) os = some (whole (vecs v os))
  | [], _, _ => rfl
  | o :: os, v, h => by
    show ((o.onBuf (whole v)).bind fun b' => bufs b' os) = _
    rw [onBuf_whole v o h.1]
    exact bufs_whole os _ h.2

theorem new_whole (v : Bytes) (cap : Nat) (h : v.length ≤ cap) :
    Buf.new v cap 0 v.length = some (whole v) := by
  unfold Buf.new
  rw [if_neg (by omega)]
  rfl

theorem sealWin_whole {c : Aead} (hc : Cipher c) (ad v : Bytes) :
    sealWin c ad (whole v) = .ok (whole (sealVec c ad v)) := by
  unfold sealWin
  rw [view_whole]
  simp only [write_whole]
  simp only [Buf.extend, sealVec, whole, List.length_append, hc.length]

theorem openWin_whole {c : Aead} (hc : Cipher c) (ad v : Bytes) :
    openWin c ad (whole v) =
      match openVec c ad v with
      | none => .err
      | some m => .ok (whole m) := by
  unfold openWin openVec
  have hl : (whole v).len = v.length := rfl
  rw [hl]
  split
  · rfl
  · rename_i hlt
    rw [view_whole]
    simp only
    rw [if_neg (by omega), if_neg (by rw [List.length_drop]; omega)]
    cases hd : c.dec ad (v.take (v.length - c.tagLen)) (v.drop (v.length - c.tagLen)) with
    | none => rfl
    | some m =>
      have hm := hc.decLength _ _ _ _ hd
      rw [List.length_take, Nat.min_eq_left (by omega)] at hm
      simp only [write_whole]
      simp only [Buf.truncate, whole]
      rw [← hm, List.take_left]

theorem sealBuf_eq {c : Aead} (hc : Cipher c) (ad v : Bytes) (cap : Nat) (h : v.length ≤ cap) :
    sealBuf (some c) ad v cap = .ok (sealVec c ad v) := by
  unfold sealBuf
  rw [new_whole v cap h]
  simp only [sealWin_whole hc]
  rfl

theorem openBuf_eq {c : Aead} (hc : Cipher c) (ad v : Bytes) (cap : Nat) (h : v.length ≤ cap) :
    openBuf (some c) ad v cap =
      match openVec c ad v with
      | none => .err
      | some m => .ok m := by
  unfold openBuf
  rw [new_whole v cap h]
  simp only [openWin_whole hc]
  cases openVec c ad v <;> rfl

theorem openVec_sealVec {c : Aead} (hc : Cipher c) (ad v : Bytes) :
    openVec c ad (sealVec c ad v) = some v := by
  have hl : (sealVec c ad v).length - c.tagLen = (c.enc ad v).1.length := by
    simp only [sealVec, List.length_append, hc.tag]
    omega
  unfold openVec
  rw [if_neg (by simp only [sealVec, List.length_append, hc.tag]; omega), hl]
  simp only [sealVec, List.take_left, List.drop_left, hc.back]

theorem seal_shift {c : Aead} (hc : Cipher c) (ad v : Bytes) (lo : Nat) (hl : lo ≤ v.length) :
    ∃ b, sealWin c ad ⟨v, lo, v.length⟩ = .ok b ∧ b.lo = lo ∧ b.hi = v.length + c.tagLen ∧
      b.inner.length = v.length + c.tagLen := by
  unfold sealWin
  have hv : Buf.view ⟨v, lo, v.length⟩ = some (v.drop lo) := by
    simp [Buf.view, hl]
  rw [hv]
  refine ⟨_, rfl, rfl, ?_, ?_⟩
  · simp [Buf.extend, Buf.write, hc.tag]
  · simp only [Buf.extend, Buf.write, List.length_append, List.length_take, List.length_drop,
      hc.length, hc.tag]
    omega

end Verif.InPlace

import Verif.InPlace.Lemmas

/-! # Properties C252-C255 -/

namespace Verif.InPlace

/-- A cipher for the examples: adds one, with a tag of two bytes. -/
def plusOne : Aead where
  tagLen := 2
  enc := fun ad m => (m.map (· + 1), [m.sum, ad.sum])
  dec := fun ad v t => if t = [(v.map (· - 1)).sum, ad.sum] then some (v.map (· - 1)) else none

theorem plusOne_cipher : Cipher plusOne := by
  have hm : ∀ m : Bytes, (m.map (· + 1)).map (· - 1) = m := by
    intro m
    rw [List.map_map]
    exact List.map_id'' (fun n => by simp) m
  refine ⟨?_, ?_, ?_, ?_⟩
  · intro ad m; simp [plusOne]
  · intro ad m; rfl
  · intro ad m
    simp only [plusOne, hm, if_true]
  · intro ad v t m h
    simp only [plusOne] at h
    split at h
    · cases h; simp
    · cases h

/-! ## C252: a window obeys the laws of a buffer -/

/-- Refuted: an accepted window that begins later shows less than its length says. -/
theorem C252_counterexample_short (v : Bytes) (lo : Nat) (h0 : 0 < lo) (hl : lo ≤ v.length) :
    ∃ b, Buf.new v v.length lo v.length = some b ∧ ¬ Lawful b := by
  refine ⟨⟨v, lo, v.length⟩, by simp [Buf.new], ?_⟩
  rintro ⟨w, hw, hlen⟩
  simp only [Buf.view, hl, Nat.le_refl, and_self, if_true, List.take_length,
    Option.some.injEq] at hw
  subst hw
  rw [List.length_drop, Buf.len] at hlen
  simp only at hlen
  omega

/-- Refuted: a window within the capacity, but beyond the length, is accepted and panics. -/
theorem C252_counterexample_beyond (v : Bytes) (cap lo hi : Nat) (h1 : v.length < hi)
    (h2 : hi ≤ cap) : ∃ b, Buf.new v cap lo hi = some b ∧ b.view = none := by
  refine ⟨⟨v, lo, hi⟩, by simp [Buf.new]; omega, ?_⟩
  simp only [Buf.view]
  rw [if_neg (by omega)]

/-- Partial: a window of the whole buffer does just what a vector does, under all operations.  All
callers use such windows.  What is missing: other windows. -/
theorem C252_partial (v : Bytes) (cap : Nat) (hcap : v.length ≤ cap) (os : List Op)
    (h : AllFair v os) :
    ∃ b b', Buf.new v cap 0 v.length = some b ∧ bufs b os = some b' ∧
      b'.inner = vecs v os ∧ b'.view = some (vecs v os) ∧ Lawful b' :=
  ⟨whole v, whole (vecs v os), new_whole v cap hcap, bufs_whole os v h, rfl, view_whole _,
    _, view_whole _, rfl⟩

example : AllFair [1, 2, 3] [.write (·.map (· + 7)), .extend [4, 5], .truncate 4] := by
  simp [AllFair, Op.Fair, Op.onVec]
example : vecs [1, 2, 3] [.write (·.map (· + 7)), .extend [4, 5], .truncate 4] = [8, 9, 10, 4] := by
  decide

/-! ## C253: what is encrypted in a window is decrypted in it -/

/-- Refuted: with a window that begins later, decryption panics, whatever the cipher. -/
theorem C253_counterexample (c : Aead) (hc : Cipher c) (ad v : Bytes) (lo : Nat) (h0 : 0 < lo)
    (hl : lo ≤ v.length) :
    ∃ b, sealWin c ad ⟨v, lo, v.length⟩ = .ok b ∧ openWin c ad b = .panic := by
  obtain ⟨b, hb, h1, h2, h3⟩ := seal_shift hc ad v lo hl
  refine ⟨b, hb, ?_⟩
  unfold openWin
  have hlen : b.len = v.length + c.tagLen := h3
  rw [hlen, if_neg (by omega)]
  have hv : b.view = some ((b.inner.take b.hi).drop b.lo) := by
    unfold Buf.view
    rw [if_pos (by omega)]
  rw [hv]
  simp only
  split
  · rfl
  · rename_i hx
    simp only [List.length_drop, List.length_take] at hx
    rw [if_pos]
    simp only [List.length_drop, List.length_take]
    omega

/-- Partial: with the window of the whole buffer what was encrypted comes back.  What is missing:
other windows. -/
theorem C253_partial (c : Aead) (hc : Cipher c) (ad v : Bytes) (cap cap' : Nat)
    (h : v.length ≤ cap) (h' : v.length + c.tagLen ≤ cap') :
    ∃ w, sealBuf (some c) ad v cap = .ok w ∧ w.length = v.length + c.tagLen ∧
      openBuf (some c) ad w cap' = .ok v := by
  have hw : (sealVec c ad v).length = v.length + c.tagLen := by
    simp [sealVec, hc.length, hc.tag]
  refine ⟨_, sealBuf_eq hc ad v cap h, hw, ?_⟩
  rw [openBuf_eq hc ad _ cap' (by omega), openVec_sealVec hc]

/-! ## C254: in place and on a copy are the same -/

theorem C254_encrypt (c : Aead) (hc : Cipher c) (ad v : Bytes) (cap : Nat) (h : v.length ≤ cap) :
    sealBuf (some c) ad v cap = .ok (sealVec c ad v) := sealBuf_eq hc ad v cap h

/-- For all bytes, also such that nobody encrypted; nothing panics. -/
theorem C254_decrypt (c : Aead) (hc : Cipher c) (ad v : Bytes) (cap : Nat) (h : v.length ≤ cap) :
    (∀ m, openBuf (some c) ad v cap = .ok m ↔ openVec c ad v = some m) ∧
      (openBuf (some c) ad v cap = .err ↔ openVec c ad v = none) ∧
      openBuf (some c) ad v cap ≠ .panic := by
  rw [openBuf_eq hc ad v cap h]
  cases openVec c ad v <;> simp

/-- A packet comes through with its payload, and without its counter. -/
theorem C254_packet (c : Aead) (hc : Cipher c) (header payload pid : Bytes) (hp : pid.length = 8)
    (fresh : Bytes → Bool) (hf : fresh pid = true) (room room' : Nat) :
    ∃ p, protect (some c) pid header.length (header ++ payload) room = (.ok (), header ++ p) ∧
      p.length = payload.length + 8 + c.tagLen ∧
      validate (some c) fresh header p room' = (.ok (), payload) := by
  refine ⟨sealVec c header (payload ++ pid), ?_, ?_, ?_⟩
  · unfold protect
    rw [if_neg (by rw [List.length_append]; omega)]
    simp only [List.take_left, List.drop_left]
    rw [sealBuf_eq hc _ _ _ (by omega)]
  · simp [sealVec, hc.length, hc.tag, hp]
  · unfold validate
    rw [openBuf_eq hc _ _ _ (by omega), openVec_sealVec hc]
    have hl : (payload ++ pid).length - 8 = payload.length := by
      rw [List.length_append, hp]; omega
    simp only
    rw [if_neg (by rw [List.length_append]; omega), hl, List.drop_left, hf, List.take_left]
    rfl

/-- What is validated was opened, with a counter that is fresh. -/
theorem C254_valid (c : Aead) (hc : Cipher c) (fresh : Bytes → Bool) (header p m : Bytes)
    (room : Nat) (h : validate (some c) fresh header p room = (.ok (), m)) :
    ∃ pid, openVec c header p = some (m ++ pid) ∧ pid.length = 8 ∧ fresh pid = true := by
  unfold validate at h
  rw [openBuf_eq hc _ _ _ (by omega)] at h
  cases ho : openVec c header p with
  | none => rw [ho] at h; simp at h
  | some q =>
    rw [ho] at h
    simp only at h
    split at h
    · simp at h
    · split at h
      · rename_i h8 hf
        simp only [Prod.mk.injEq, true_and] at h
        subst h
        exact ⟨q.drop (q.length - 8), by rw [List.take_append_drop],
          by rw [List.length_drop]; omega, hf⟩
      · simp at h

example : protect (some plusOne) [0, 0, 0, 0, 0, 0, 0, 9] 2 [5, 6, 1, 2] 0 =
    (.ok (), [5, 6, 2, 3, 1, 1, 1, 1, 1, 1, 1, 10, 12, 11]) := by decide

/-! ## C255: a failure leaves the packet as it was -/

/-- Refuted: without a key, a packet that was to be protected has lost its payload. -/
theorem C255_counterexample_key (header payload pid : Bytes) (room : Nat) :
    protect none pid header.length (header ++ payload) room = (.err, header) := by
  unfold protect
  rw [if_neg (by rw [List.length_append]; omega)]
  simp only [List.take_left, sealBuf]
  rw [new_whole _ _ (by omega)]

/-- Refuted: a packet that comes again is refused, and left decrypted in the buffer. -/
theorem C255_counterexample_replay (c : Aead) (hc : Cipher c) (header payload pid : Bytes)
    (hp : pid.length = 8) (fresh : Bytes → Bool) (hf : fresh pid = false) (room : Nat) :
    validate (some c) fresh header (sealVec c header (payload ++ pid)) room =
      (.err, payload ++ pid) := by
  unfold validate
  rw [openBuf_eq hc _ _ _ (by omega), openVec_sealVec hc]
  have hl : (payload ++ pid).length - 8 = payload.length := by
    rw [List.length_append, hp]; omega
  simp only
  rw [if_neg (by rw [List.length_append]; omega), hl, List.drop_left, hf]
  rfl

/-- Refuted: a header length beyond the packet panics. -/
theorem C255_counterexample_header (key : Option Aead) (pid packet : Bytes) (n room : Nat)
    (h : packet.length < n) : protect key pid n packet room = (.panic, packet) := by
  unfold protect
  rw [if_pos h]

/-- Partial: what cannot be opened is left as it was.  What is missing: replayed packets, packets
too short for a counter, and the protection without a key. -/
theorem C255_partial (key : Option Aead) (hk : ∀ c, key = some c → Cipher c)
    (fresh : Bytes → Bool) (header p : Bytes) (room : Nat)
    (h : ∀ c, key = some c → openVec c header p = none) :
    validate key fresh header p room = (.err, p) := by
  unfold validate
  cases key with
  | none =>
    have : openBuf none header p (p.length + room) = .err := by
      unfold openBuf
      rw [new_whole _ _ (by omega)]
    rw [this]
  | some c =>
    rw [openBuf_eq (hk c rfl) _ _ _ (by omega), h c rfl]

example : validate (some plusOne) (fun _ => true) [5, 6] [2, 3, 1, 1, 1, 1, 1, 1, 1, 10, 12, 12] 0 =
    (.err, [2, 3, 1, 1, 1, 1, 1, 1, 1, 10, 12, 12]) := by decide

end Verif.InPlace

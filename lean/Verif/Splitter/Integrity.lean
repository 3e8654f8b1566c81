import Verif.Splitter.Props
/-
Properties C69 and C70: what a finished group contains.
-/
namespace Verif.Splitter
open Verif

/-- The hypotheses of `C68_no_panic_partial` are met by every file the sender announces and the receiver accepts. -/
example {n : Nat} (hn : 0 < n) (hmax : n ≤ maxBytesPerGroup) (hz : n % 7032 ≠ 0) : ∃ c, metadata symCt 14 n false = some c ∧
    validate c = true ∧ Regular c sampleMapping.length := by
  obtain ⟨c, h1, h2⟩ := C13_file_transfer_partial n hn hmax false
  refine ⟨c, h1, h2.2 hz, ?_, Or.inl ?_⟩
  · rw [sym_metadata hn] at h1; cases h1; exact (by decide : 14 = sampleMapping.length)
  · rw [sym_metadata hn, if_neg hz] at h1; cases h1; rfl

/-! ### C69: a finished group has no gaps -/

/-- C69 is false for a hostile sender: lengths add up, the group is reported finished, and the last byte was never written. -/
theorem C69_counterexample :
    let c : Cfg := { packetsNeeded := 2, maxPackets := 1, plainLen := 4, maxPayload := 3, lastPayload := 3, fullWaves := 1
                     partialWaves := 1, waveCount := 2, maxPlain := 2, lastPlain := 2, packetsInLast := 1, emptyTransfer := false }
    let t := deliver some (newRecv c) [⟨0, 0, [9, 9, 9]⟩, ⟨1, 1, [8]⟩]
    validate c = true ∧ t.2 = [.waveComplete 0, .groupComplete 1] ∧ finalize t.1 = [9, 9, 8, 0] := by
  decide

/-- C69 is false for a hostile sender: the group is reported finished although its last wave did not decrypt. -/
theorem C69_counterexample_undecrypted :
    let c : Cfg := { packetsNeeded := 2, maxPackets := 1, plainLen := 4, maxPayload := 4, lastPayload := 4, fullWaves := 1
                     partialWaves := 1, waveCount := 2, maxPlain := 2, lastPlain := 2, packetsInLast := 1, emptyTransfer := false }
    let dec : Bytes → Option Bytes := fun x => if x = [8] then none else some x
    let t := deliver dec (newRecv c) [⟨1, 1, [8]⟩, ⟨0, 0, [9, 9, 9, 9]⟩]
    validate c = true ∧ t.2 = [.corrupt, .groupComplete 0] ∧ finalize t.1 = [9, 9, 9, 9] := by
  decide

theorem validate_covers {c : Cfg} (h : validate c = true) : c.plainLen ≤ c.waveCount * c.maxPlain := by
  unfold validate at h
  simp only [Bool.and_eq_true, decide_eq_true_eq] at h
  obtain ⟨⟨⟨⟨⟨⟨⟨⟨⟨⟨⟨⟨⟨_, _⟩, _⟩, _⟩, _⟩, v6⟩, v7⟩, _⟩, _⟩, _⟩, _⟩, v12⟩, v13⟩, _⟩ := h
  rw [← v13, ← v7, Nat.add_mul]
  have : c.partialWaves * c.lastPlain ≤ c.partialWaves * c.maxPlain := Nat.mul_le_mul_left _ v12
  omega

/-- C69: if a wave's worth of ciphertext never decrypts to more than a wave's worth of plaintext, a group reported finished is
complete: after any packets at all, every window of it is the content of one successfully decrypted wave. -/
theorem C69_finished_is_complete_partial {c : Cfg} {dec : Bytes → Option Bytes} (hv : validate c = true)
    (hstride : ∀ x b, x.length ≤ c.maxPayload * c.maxPackets → dec x = some b → b.length ≤ c.maxPlain) (ps : List Packet)
    (hend : ∃ s ∈ (deliver dec (newRecv c) ps).2, endsGroup s = true) :
    (deliver dec (newRecv c) ps).1.slab.length = c.plainLen ∧
    ∀ i, i < c.waveCount → i * c.maxPlain < c.plainLen →
      ∃ x, dec x = some (((deliver dec (newRecv c) ps).1.slab.drop (i * c.maxPlain)).take c.maxPlain) := by
  have hcov := validate_covers hv
  obtain ⟨y, hy⟩ := hinv_deliver hcov hstride ps (newRecv c) _ (hinv_init c)
  have hf := (deliver_ends (dec := dec) ps (newRecv c) (fun i hi => if_neg (by simpa [newRecv] using hi))).2 hend
  exact ⟨hy.slabLen, finished_windows hy hcov hf⟩

/-- C69 for an honest description and the symmetric algorithms, which subtract 24 bytes: no assumption about the packets. -/
theorem C69_symmetric_partial {enc : Nat → Bytes → Bytes} {dec : Bytes → Option Bytes} (hsym : Symmetric enc dec)
    (hdec : ∀ x b, dec x = some b → b.length + 24 = x.length) {plain : Bytes} {e fixed : Bool} {c : Cfg} {sent : List Packet}
    (hn : 0 < plain.length) (hfix : fixed = true → plain.length % 7032 ≠ 0)
    (hs : sendGroup symCt 14 enc fixed plain e = some (c, sent)) (ps : List Packet)
    (hend : ∃ s ∈ (deliver dec (newRecv c) ps).2, endsGroup s = true) :
    (deliver dec (newRecv c) ps).1.slab.length = plain.length ∧
    ∀ i, i * 7032 < plain.length →
      ∃ x, dec x = some (((deliver dec (newRecv c) ps).1.slab.drop (i * 7032)).take 7032) := by
  obtain ⟨_, _, hc⟩ := send_spec (by omega) hn hsym.fits
    (fun hf => ⟨by rw [sym_sizes.2]; exact hfix hf, fun i pt _ _ => by rw [hsym.len, symCt]; omega⟩) hs
  have g1 : c.maxPlain = 7032 := by rw [hc]; exact sym_sizes.2
  have g2 : c.maxPayload = 504 := by rw [hc]; exact sym_sizes.1
  have g3 : c.maxPackets = 14 := by rw [hc]; rfl
  have g4 : c.plainLen = plain.length := by rw [hc]; rfl
  have g5 : c.waveCount = divCeil plain.length 7032 := by
    rw [divCeil_eq_div_add (by omega), hc, sym_sizes.2]; rfl
  have hcov : c.plainLen ≤ c.waveCount * c.maxPlain := by
    rw [g1, g4, g5]
    have : ¬ divCeil plain.length 7032 * 7032 < plain.length :=
      fun hh => absurd ((lt_divCeil (by omega)).2 hh) (Nat.lt_irrefl _)
    omega
  obtain ⟨y, hy⟩ := hinv_deliver (dec := dec) hcov (fun x b hx hb => by
    have := hdec x b hb
    rw [g2, g3] at hx
    rw [g1]
    omega) ps (newRecv c) _ (hinv_init c)
  have hf := (deliver_ends (dec := dec) ps (newRecv c) (fun i hi => if_neg (by simpa [newRecv] using hi))).2 hend
  refine ⟨by rw [hy.slabLen, g4], fun i hi => ?_⟩
  have := finished_windows hy hcov hf i (by rw [g5, lt_divCeil (by omega)]; exact hi) (by rw [g1, g4]; exact hi)
  rw [g1] at this
  exact this

/-! ### C70: a relay cannot change the content -/

/-- What a relay does: exchange wave ids 0 and 1 in the packet headers. -/
def swapWave (n : Nat) : Nat := if n = 0 then 1 else if n = 1 then 0 else n

def relabel (x : Wire) : Wire := { x with wave := swapWave x.wave }

theorem swapWave_swapWave (n : Nat) : swapWave (swapWave n) = n := by
  unfold swapWave; repeat' split
  all_goals omega

theorem chunk_swapped {P : Nat} {a b rest : Bytes} (ha : a.length = P) (hb : b.length = P) (i : Nat) :
    chunk P (b ++ a ++ rest) i = chunk P (a ++ b ++ rest) (swapWave i) := by
  unfold swapWave
  split
  · next h =>
    subst h
    simp only [chunk, Nat.zero_mul, List.drop_zero, Nat.one_mul, List.append_assoc]
    rw [List.take_left' hb, List.drop_left' ha, List.take_left' hb]
  · split
    · next h =>
      subst h
      simp only [chunk, Nat.zero_mul, List.drop_zero, Nat.one_mul, List.append_assoc]
      rw [List.drop_left' hb, List.take_left' ha, List.take_left' ha]
    · next h0 h1 =>
      obtain ⟨k, hk⟩ : ∃ k, i = k + 2 := ⟨i - 2, by omega⟩
      subst hk
      simp only [chunk]
      have hlen : ∀ u v : Bytes, u.length = P → v.length = P → (u ++ v ++ rest).drop ((k + 2) * P) = rest.drop (k * P) := by
        intro u v hu hv
        have : (k + 2) * P = (u ++ v).length + k * P := by rw [List.length_append, hu, hv, Nat.add_mul]; omega
        rw [this, ← List.drop_drop, List.drop_left]
      rw [hlen b a hb ha, hlen a b ha hb]

/-- C70 is false: a relay that only exchanges the wave ids 0 and 1 in the packet headers makes the receiver finish the group
without any error, with the first two waves of the file exchanged. -/
theorem C70_counterexample {enc : Nat → Bytes → Bytes} {dec : Bytes → Option Bytes} (hsym : Symmetric enc dec)
    {a b rest : Bytes} (ha : a.length = 7032) (hb : b.length = 7032) (hrest : 0 < rest.length)
    (hmul : rest.length % 7032 ≠ 0) (hmax : (a ++ b ++ rest).length ≤ maxBytesPerGroup)
    {fixed : Bool} {c : Cfg} {ps : List Packet} {m : List (Nat × Nat)} (hm : IsMapping 14 m)
    (hs : sendGroup symCt 14 enc fixed (a ++ b ++ rest) false = some (c, ps)) :
    let t := deliverWire dec m (newRecv c) ((ps.filterMap (toWire m)).map relabel)
    finalize t.1 = b ++ a ++ rest ∧ (t.2.filter endsGroup).length = 1 ∧
      ∀ s ∈ t.2, s = .already ∨ s = .inserted ∨ ∃ i < c.waveCount, endsWave i s = true := by
  have hlen : (a ++ b ++ rest).length = 14064 + rest.length := by
    rw [List.length_append, List.length_append, ha, hb]
  have hlen2 : (b ++ a ++ rest).length = 14064 + rest.length := by
    rw [List.length_append, List.length_append, ha, hb]
  generalize hpl : a ++ b ++ rest = plain at hs hlen hmax
  generalize hpl2 : b ++ a ++ rest = plain2 at hlen2 ⊢
  have hz : plain.length % 7032 ≠ 0 := by omega
  obtain ⟨_, hmem, hc⟩ := send_spec (by omega) (by omega) hsym.fits
    (fun _ => ⟨by rw [sym_sizes.2]; exact hz, fun i pt _ _ => by rw [hsym.len, symCt]; omega⟩) hs
  have hf : Fits c 14 dec (ctOf c enc plain) plain := send_fits (by omega) (by omega) hsym.fits
    (fun h => by rw [sym_sizes.2] at h; exact absurd h hz) hc
  have g1 : c.maxPlain = 7032 := by rw [hc]; exact sym_sizes.2
  have hN3 : 2 < c.waveCount := by rw [hf.waves, g1, lt_divCeil (by omega)]; omega
  have hNN : c.waveCount < 2 ^ 32 := by
    rw [hf.waves]
    have := divCeil_le_self (n := plain.length) hf.ppos
    unfold maxBytesPerGroup at hmax
    omega
  -- the exchanged ciphertexts fit the exchanged plaintext
  have hf2 : Fits c 14 dec (fun i => ctOf c enc plain (swapWave i)) plain2 := by
    have hlast : swapWave (c.waveCount - 1) = c.waveCount - 1 := by unfold swapWave; rw [if_neg (by omega), if_neg (by omega)]
    refine ⟨hf.wpos, hf.mpos, hf.ppos, hf.packets, by rw [hf.len, hlen, hlen2], by omega,
      by rw [hf.waves, hlen, hlen2], ?_, ?_, hf.inLast_le, ?_, ?_, ?_, ?_⟩
    · intro i hi
      refine hf.full (swapWave i) ?_
      unfold swapWave; split
      · omega
      · split <;> omega
    · rw [hlast]; exact hf.inLast
    · rw [hlast]; exact hf.lastPos
    · rw [hlast]; exact hf.lastSize
    · rw [hlast]; exact hf.need
    · intro i hi
      have := hf.dec (swapWave i) (by unfold swapWave; split; · omega
                                      · split <;> omega)
      rw [this, ← hpl, ← hpl2, g1, chunk_swapped ha hb]
  have hkOf : ∀ i, kOf c (fun i => ctOf c enc plain (swapWave i)) i = kOf c (ctOf c enc plain) (swapWave i) := fun i => rfl
  have hswlt : ∀ i, i < c.waveCount → swapWave i < c.waveCount := by
    intro i hi; unfold swapWave; split
    · omega
    · split <;> omega
  -- what the relay lets through
  have hwire : ∀ i j, i < c.waveCount → j < kOf c (ctOf c enc plain) i → ∃ x,
      toWire m (packetOf c 14 (ctOf c enc plain) i j) = some x ∧
      fromWire m (relabel x) = some (packetOf c 14 (fun i => ctOf c enc plain (swapWave i)) (swapWave i) j) := by
    intro i j hi hj
    have hk := kOf_le hf hi
    have hgw := genuine_wave hf ⟨i, j, hi, hj, rfl⟩
    obtain ⟨x, h1, h2, h3⟩ := wire_roundtrip (by omega) (by omega) hm hgw.1 (by rw [← hgw.1]; omega)
    refine ⟨x, h1, ?_⟩
    unfold relabel
    rw [h2, h3]
    have hseq : (packetOf c 14 (ctOf c enc plain) i j).seq % 14 = j := by
      show (i * 14 + j) % 14 = j
      omega
    rw [hseq]
    show some (Packet.mk _ _ _) = some (Packet.mk _ _ _)
    congr 2
    show chunk c.maxPayload (ctOf c enc plain i) j = chunk c.maxPayload (ctOf c enc plain (swapWave (swapWave i))) j
    rw [swapWave_swapWave]
  have hr := reassemble hf2 (((ps.filterMap (toWire m)).map relabel).filterMap (fromWire m)) ?_ ?_
  · dsimp only
    unfold deliverWire
    refine ⟨?_, hr.2.1, hr.2.2.2⟩
    unfold finalize
    rw [deliver_cfg, hr.1]
    have : (newRecv c).cfg.emptyTransfer = false := by
      show c.emptyTransfer = false
      rw [hc]; rfl
    rw [this]; rfl
  · intro p hp
    simp only [List.mem_filterMap, List.mem_map] at hp
    obtain ⟨x, ⟨x', ⟨q, hq, hqx⟩, hx⟩, hp⟩ := hp
    obtain ⟨i, j, hi, hj, e⟩ := (hmem q).1 hq
    obtain ⟨y, h1, h2⟩ := hwire i j hi hj
    rw [e, h1] at hqx
    cases hqx
    rw [← hx, h2] at hp
    cases hp
    refine ⟨swapWave i, j, hswlt i hi, ?_, rfl⟩
    rw [hkOf, swapWave_swapWave]; exact hj
  · intro i j hi hj
    rw [hkOf] at hj
    obtain ⟨y, h1, h2⟩ := hwire (swapWave i) j (hswlt i hi) hj
    rw [swapWave_swapWave] at h2
    simp only [List.mem_filterMap, List.mem_map]
    exact ⟨relabel y, ⟨y, ⟨_, (hmem _).2 ⟨_, _, hswlt i hi, hj, rfl⟩, h1⟩, rfl⟩, h2⟩

/-- The hypotheses of `C70_counterexample` are met, and the two files differ. -/
example : ∃ (c : Cfg) (ps : List Packet), sendGroup symCt 14 toyEnc true
      (List.replicate 7032 1 ++ List.replicate 7032 2 ++ [3]) false = some (c, ps) ∧
    finalize (deliverWire toyDec sampleMapping (newRecv c) ((ps.filterMap (toWire sampleMapping)).map relabel)).1 =
      List.replicate 7032 2 ++ List.replicate 7032 1 ++ [3] := by
  have ha : (List.replicate 7032 (1 : UInt8)).length = 7032 := List.length_replicate
  have hb : (List.replicate 7032 (2 : UInt8)).length = 7032 := List.length_replicate
  generalize List.replicate 7032 (1 : UInt8) = a at ha ⊢
  generalize List.replicate 7032 (2 : UInt8) = b at hb ⊢
  obtain ⟨c, ps, hs⟩ := C12_sender_accepts (ctLen := symCt) (w := 14) toyEnc true false (plain := a ++ b ++ [3]) (by simp)
  exact ⟨c, ps, hs, (C70_counterexample toy_symmetric ha hb (by simp) (by simp)
    (by rw [List.length_append, List.length_append, ha, hb]; decide) sampleMapping_ok hs).1⟩

/-- C70: all a relay can do is choose among genuine waves. If only ciphertexts made by the sender under this key decrypt, and
each holds at most one wave of plaintext, then after any packets at all, every window of a finished group is the
content of some wave the sender did encrypt under this key. -/
theorem C70_windows_genuine_partial {c : Cfg} {dec : Bytes → Option Bytes} (sent : List (Bytes × Bytes)) (hv : validate c = true)
    (hideal : ∀ x b, dec x = some b → (x, b) ∈ sent) (hsize : ∀ x b, (x, b) ∈ sent → b.length ≤ c.maxPlain)
    (ps : List Packet) (hend : ∃ s ∈ (deliver dec (newRecv c) ps).2, endsGroup s = true) :
    ∀ i, i < c.waveCount → i * c.maxPlain < c.plainLen → ∃ x,
      (x, ((deliver dec (newRecv c) ps).1.slab.drop (i * c.maxPlain)).take c.maxPlain) ∈ sent := by
  have h := (C69_finished_is_complete_partial hv (fun x b _ hb => hsize x b (hideal x b hb)) ps hend).2
  intro i hi hp
  obtain ⟨x, hx⟩ := h i hi hp
  exact ⟨x, hideal x _ hx⟩

end Verif.Splitter

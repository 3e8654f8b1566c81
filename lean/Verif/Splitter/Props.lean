import Verif.Splitter.Honest
/-
Properties C11-C16 and C68-C70: splitting files into packets and putting them together again.
-/
namespace Verif.Splitter
open Verif

/-! ### C11 -/

/-- C11: the coordinates stamped on packet `i` lead the receiver back to `i`, for every pair of port shuffles. -/
theorem C11_coordinates_invertible {w : Nat} {m : List (Nat × Nat)} (hw : 0 < w) (h : IsMapping w m) (i : Nat)
    (hi : i / w < 2 ^ 32) :
    ∃ wave src dst, packetVector m i = some (wave, src, dst) ∧ coordinatesInv m wave src dst = some i := by
  obtain ⟨v, h1, _, _, _, h5⟩ := coordinates_roundtrip hw h hi
  exact ⟨v.1, v.2.1, v.2.2, h1, h5⟩

/-- C11: different packets of a group never get the same coordinates. -/
theorem C11_coordinates_distinct {w : Nat} {m : List (Nat × Nat)} (hw : 0 < w) (h : IsMapping w m) (i j : Nat)
    (hi : i / w < 2 ^ 32) (hj : j / w < 2 ^ 32) (he : packetVector m i = packetVector m j) : i = j := by
  obtain ⟨v, h1, _, _, _, h5⟩ := coordinates_roundtrip hw h hi
  obtain ⟨u, k1, _, _, _, k5⟩ := coordinates_roundtrip hw h hj
  rw [h1, k1] at he
  cases he
  rw [h5] at k5
  exact Option.some.inj k5

/-- C11: whatever coordinates arrive, the position found lies in the wave named by the header. -/
theorem C11_position_in_wave (m : List (Nat × Nat)) (wave src dst i : Nat) (h : coordinatesInv m wave src dst = some i) :
    i / m.length = wave ∧ m[i % m.length]? = some (src, dst) := by
  obtain ⟨k, hk, hm⟩ := coordinatesInv_some h
  have hl := (List.getElem?_eq_some_iff.1 hm).1
  subst hk
  rw [Nat.mul_comm, Nat.mul_add_div (by omega), Nat.div_eq_of_lt hl, Nat.mul_add_mod, Nat.mod_eq_of_lt hl]
  exact ⟨by omega, hm⟩

/-- A mapping as `create_port_mapping` builds it. -/
def sampleMapping : List (Nat × Nat) := portMapping (List.range 14) (List.range 14).reverse

theorem sampleMapping_ok : IsMapping 14 sampleMapping :=
  ⟨⟨_, _, List.Perm.refl _, List.reverse_perm _, rfl⟩⟩

example : packetVector sampleMapping 31 = some (2, 3, 10) ∧ coordinatesInv sampleMapping 2 3 10 = some 31 := by decide
/-- If a port could repeat, two packets would share coordinates. -/
example : packetVector [(1, 1), (1, 1)] 0 = packetVector [(1, 1), (1, 1)] 1 := by decide

/-! ### C12 -/

/-- `max_ciphertext_len` of the three symmetric algorithms. -/
def symCt (n : Nat) : Nat := n + 16

theorem sym_sizes : maxPacketSize symCt = 504 ∧ waveSize symCt 14 = 7032 := by decide

/-- A symmetric algorithm: 16 bytes of tag and 8 of nonce, and decryption undoes encryption. -/
structure Symmetric (enc : Nat → Bytes → Bytes) (dec : Bytes → Option Bytes) : Prop where
  len : ∀ i pt, (enc i pt).length = pt.length + 24
  dec : ∀ i pt, dec (enc i pt) = some pt

theorem Symmetric.fits {enc : Nat → Bytes → Bytes} {dec : Bytes → Option Bytes} (h : Symmetric enc dec) :
    CipherFits 14 (maxPacketSize symCt) (waveSize symCt 14) enc dec := by
  rw [sym_sizes.1, sym_sizes.2]
  refine ⟨?_, ?_, h.dec⟩
  · intro i pt hp; rw [h.len, hp]; omega
  · intro i pt h1 h2; rw [h.len]; omega

/-- C12 for any cipher whose waves fit: the packets of a group, arriving in any order and any number of times, restore the
plaintext; the group and each wave are reported finished exactly once, and no packet is rejected. -/
theorem C12_reassembly_partial {ctLen : Nat → Nat} {w : Nat} {enc : Nat → Bytes → Bytes} {dec : Bytes → Option Bytes}
    {plain : Bytes} {e fixed : Bool} {c : Cfg} {ps : List Packet} {m : List (Nat × Nat)} {xs : List Wire}
    (hw : 0 < w) (hw2 : w ≤ 256) (hm : IsMapping w m) (hn : 0 < plain.length) (hmax : plain.length ≤ maxBytesPerGroup)
    (hcf : CipherFits w (maxPacketSize ctLen) (waveSize ctLen w) enc dec)
    (hfix : fixed = true → plain.length % waveSize ctLen w ≠ 0 ∧
      ∀ i pt, 0 < pt.length → pt.length < waveSize ctLen w → (enc i pt).length = 8 + ctLen pt.length)
    (hmul : plain.length % waveSize ctLen w = 0 →
      ∀ i pt, pt.length = waveSize ctLen w → (enc i pt).length % maxPacketSize ctLen = 0)
    (hs : sendGroup ctLen w enc fixed plain e = some (c, ps))
    (hxs : ∀ x, x ∈ xs ↔ x ∈ ps.filterMap (toWire m)) :
    (deliverWire dec m (newRecv c) xs).1.slab = plain ∧
      finalize (deliverWire dec m (newRecv c) xs).1 = (if e then [] else plain) ∧
      ((deliverWire dec m (newRecv c) xs).2.filter endsGroup).length = 1 ∧
      (∀ i < c.waveCount, ((deliverWire dec m (newRecv c) xs).2.filter (endsWave i)).length = 1) ∧
      ∀ s ∈ (deliverWire dec m (newRecv c) xs).2, s = .already ∨ s = .inserted ∨ ∃ i < c.waveCount, endsWave i s = true := by
  obtain ⟨_, hmem, hc⟩ := send_spec hw hn hcf hfix hs
  have hf := send_fits hw hn hcf hmul hc
  have hN : c.waveCount < 2 ^ 32 := by
    rw [hf.waves]
    have := divCeil_le_self (n := plain.length) hf.ppos
    unfold maxBytesPerGroup at hmax
    omega
  have hps : ∀ p ∈ ps, p.wave = p.seq / w ∧ p.wave < 2 ^ 32 := by
    intro p hp
    have := genuine_wave hf ((hmem p).1 hp)
    exact ⟨this.1, by omega⟩
  have hiff := filterMap_wire hw hw2 hm hps hxs
  have hr := reassemble hf (xs.filterMap (fromWire m)) (fun p hp => (hmem p).1 ((hiff p).1 hp))
    (fun i j hi hj => (hiff _).2 ((hmem _).2 ⟨i, j, hi, hj, rfl⟩))
  unfold deliverWire
  refine ⟨hr.1, ?_, hr.2⟩
  unfold finalize
  rw [deliver_cfg, hr.1]
  have : (newRecv c).cfg.emptyTransfer = e := by
    show c.emptyTransfer = e
    rw [hc]; rfl
  rw [this]

/-- C12 for the symmetric algorithms: every length, except that a plain file transfer must not be a multiple of 7032 bytes
(see `C13_counterexample`). -/
theorem C12_symmetric_partial {enc : Nat → Bytes → Bytes} {dec : Bytes → Option Bytes} (hsym : Symmetric enc dec)
    {plain : Bytes} {e fixed : Bool} {c : Cfg} {ps : List Packet} {m : List (Nat × Nat)} {xs : List Wire}
    (hm : IsMapping 14 m) (hn : 0 < plain.length) (hmax : plain.length ≤ maxBytesPerGroup)
    (hfix : fixed = true → plain.length % 7032 ≠ 0)
    (hs : sendGroup symCt 14 enc fixed plain e = some (c, ps))
    (hxs : ∀ x, x ∈ xs ↔ x ∈ ps.filterMap (toWire m)) :
    finalize (deliverWire dec m (newRecv c) xs).1 = (if e then [] else plain) ∧
      ((deliverWire dec m (newRecv c) xs).2.filter endsGroup).length = 1 ∧
      (∀ i < c.waveCount, ((deliverWire dec m (newRecv c) xs).2.filter (endsWave i)).length = 1) ∧
      ∀ s ∈ (deliverWire dec m (newRecv c) xs).2, s = .already ∨ s = .inserted ∨ ∃ i < c.waveCount, endsWave i s = true := by
  refine (C12_reassembly_partial (by omega) (by omega) hm hn hmax hsym.fits ?_ ?_ hs hxs).2
  · intro hf
    refine ⟨by rw [sym_sizes.2]; exact hfix hf, ?_⟩
    intro i pt _ _
    rw [hsym.len, symCt]; omega
  · intro _ i pt hp
    rw [hsym.len, hp, sym_sizes.1, sym_sizes.2]

/-- The sender splits every non-empty plaintext. -/
theorem C12_sender_accepts {ctLen : Nat → Nat} {w : Nat} (enc : Nat → Bytes → Bytes) (fixed e : Bool) {plain : Bytes}
    (hn : 0 < plain.length) : ∃ c ps, sendGroup ctLen w enc fixed plain e = some (c, ps) := by
  unfold sendGroup
  rw [metadata_eq hn, Option.map_some]
  exact ⟨_, _, rfl⟩

/-- A toy symmetric cipher: 24 bytes naming the wave in front of the plaintext. -/
def toyEnc (i : Nat) (pt : Bytes) : Bytes := List.replicate 24 (UInt8.ofNat i) ++ pt
def toyDec (x : Bytes) : Option Bytes := some (x.drop 24)

theorem toy_symmetric : Symmetric toyEnc toyDec :=
  ⟨fun i pt => by rw [toyEnc, List.length_append, List.length_replicate]; exact Nat.add_comm _ _, fun i pt => by simp [toyEnc, toyDec]⟩

/-- A hybrid wave whose ciphertext is not a whole number of packets. -/
structure Stuck (c : Cfg) (w l : Nat) (r : Recv) : Prop where
  cfg : r.cfg = c
  wave : ∃ v, r.store l = some v ∧ v.inWave = w ∧ v.buf.length = (newWave c l).buf.length ∧
    v.received ≤ tally (fun j => r.got (l * w + j)) (fun _ => 1) (w - 1)

theorem tally_mono {f g : Nat → Bool} {k : Nat} (h : ∀ j < k, f j = true → g j = true) :
    tally f (fun _ => 1) k ≤ tally g (fun _ => 1) k := by
  induction k with
  | zero => exact Nat.le_refl _
  | succ k ih =>
    simp only [tally]
    have h1 := ih fun j hj => h j (by omega)
    have h2 := h k (by omega)
    cases hf : f k
    · simp; omega
    · rw [h2 hf]; simp; omega

theorem onPacket_store_other (dec : Bytes → Option Bytes) (r : Recv) (p : Packet) (l : Nat) (h : p.wave ≠ l) :
    (onPacket dec r p).1.store l = r.store l := by
  have h' : l ≠ p.wave := fun e => h e.symm
  unfold onPacket
  split
  · split
    · rfl
    · dsimp only
      split
      · rfl
      · split
        · rfl
        · split
          · unfold finishWave
            dsimp only
            split
            · dsimp only; rw [setFn_ne h', setFn_ne h']
            · split
              · dsimp only; rw [setFn_ne h', setFn_ne h']
              · split
                · split <;> (dsimp only; rw [setFn_ne h', setFn_ne h'])
                · dsimp only; rw [setFn_ne h', setFn_ne h']
          · dsimp only; rw [setFn_ne h']
  · rfl

theorem stuck_step {c : Cfg} {w l : Nat} {dec : Bytes → Option Bytes} {r : Recv} {p : Packet} (hw : 0 < w)
    (hpk : c.maxPackets = w) (hneed : l * w + w ≤ c.packetsNeeded - 1)
    (hbuf : (w - 1) * c.maxPayload < (newWave c l).buf.length ∧ (newWave c l).buf.length < w * c.maxPayload)
    (h : Stuck c w l r) (hp : p.wave = l → ∃ j < w, p.seq = l * w + j) : Stuck c w l (onPacket dec r p).1 := by
  obtain ⟨v, h1, h2, h3, h4⟩ := h.wave
  refine ⟨by rw [onPacket_cfg, h.cfg], ?_⟩
  have hgot : ∀ s, r.got s = true → (onPacket dec r p).1.got s = true := by
    intro s hs
    rw [(onPacket_got r p).1]
    split
    · by_cases e : s = p.seq
      · rw [e, setFn_same]
      · rw [setFn_ne e]; exact hs
    · exact hs
  by_cases hpw : p.wave = l
  · obtain ⟨j, hj, hseq⟩ := hp hpw
    have hmono := tally_mono (k := w - 1) fun j _ hh => hgot (l * w + j) hh
    unfold onPacket at hgot hmono ⊢
    rw [h.cfg, if_pos (by omega : p.seq < c.packetsNeeded)] at hgot hmono ⊢
    by_cases hg : r.got p.seq = true
    · rw [if_pos hg]; exact ⟨v, h1, h2, h3, h4⟩
    · rw [if_neg hg] at hgot hmono ⊢
      dsimp only at hgot hmono ⊢
      rw [hpw, h1] at hgot hmono ⊢
      dsimp only at hgot hmono ⊢
      have hmod : (l * w + j) % c.maxPackets = j := by
        rw [hpk, Nat.mul_comm, Nat.mul_add_mod, Nat.mod_eq_of_lt hj]
      have hrange : insertionRange c p.seq v.buf.length = some (c.maxPayload * j, c.maxPayload + c.maxPayload * j) := by
        unfold insertionRange; rw [if_neg (by omega), hseq, hmod]
      cases hins : insertPacket c p.seq v p.payload with
      | error s =>
        rw [hins] at hgot hmono
        dsimp only at hgot hmono ⊢
        exact ⟨v, h1, h2, h3, Nat.le_trans h4 hmono⟩
      | ok v' =>
        have hok := insertPacket_ok hins
        -- the last packet of the wave is never accepted
        have hj1 : j < w - 1 := by
          by_contra hc
          have hjw : j = w - 1 := by omega
          unfold insertPacket at hins
          rw [hrange] at hins
          dsimp only at hins
          have hww : w * c.maxPayload = (w - 1) * c.maxPayload + c.maxPayload := by
            rw [← Nat.succ_mul]; congr 1; omega
          rw [if_neg] at hins
          · cases hins
          · rw [h3, hjw, Nat.mul_comm c.maxPayload]
            simp only [checkBounds, Bool.not_eq_true', Bool.and_eq_false_iff, decide_eq_false_iff_not]
            omega
        have hg' : r.got (l * w + j) = false := by rw [← hseq]; simpa using hg
        have ht : tally (fun j' => setFn r.got p.seq true (l * w + j')) (fun _ => 1) (w - 1) =
            tally (fun j' => r.got (l * w + j')) (fun _ => 1) (w - 1) + 1 := by
          refine tally_set (j := j) hj1 hg' (by rw [hseq, setFn_same]) fun i hi => ?_
          rw [hseq, setFn_ne (by omega)]
        have hle : v'.received ≤ tally (fun j' => setFn r.got p.seq true (l * w + j')) (fun _ => 1) (w - 1) := by
          rw [ht, hok.2.2]; omega
        have hlt := tally_le (fun j' => setFn r.got p.seq true (l * w + j')) (w - 1)
        dsimp only
        rw [if_neg (by rw [hok.2.1, h2]; omega)]
        exact ⟨v', setFn_same _ _ _, by rw [hok.2.1, h2], by rw [hok.1, h3], hle⟩
  · rw [onPacket_store_other dec r p l hpw]
    exact ⟨v, h1, h2, h3, Nat.le_trans h4 (tally_mono fun j _ hh => hgot _ hh)⟩

theorem stuck_deliver {c : Cfg} {w l : Nat} {dec : Bytes → Option Bytes} (hw : 0 < w)
    (hpk : c.maxPackets = w) (hneed : l * w + w ≤ c.packetsNeeded - 1)
    (hbuf : (w - 1) * c.maxPayload < (newWave c l).buf.length ∧ (newWave c l).buf.length < w * c.maxPayload)
    (ps : List Packet) : ∀ r, Stuck c w l r → (∀ p ∈ ps, p.wave = l → ∃ j < w, p.seq = l * w + j) →
      Stuck c w l (deliver dec r ps).1 := by
  induction ps with
  | nil => intro r h _; exact h
  | cons p ps ih =>
    intro r h hp
    exact ih _ (stuck_step hw hpk hneed hbuf h (hp p (by simp))) fun q hq => hp q (by simp [hq])

/-- C12 is false for the hybrid algorithm: when the plaintext is a whole number of waves and a full wave does not encrypt to a
whole number of packets, the last packet is refused and the group never finishes, whatever arrives. -/
theorem C12_counterexample_hybrid {ctLen : Nat → Nat} {w : Nat} {enc : Nat → Bytes → Bytes} {dec : Bytes → Option Bytes}
    {plain : Bytes} {e : Bool} {c : Cfg} {ps : List Packet} {m : List (Nat × Nat)} (hw : 0 < w) (hm : IsMapping w m)
    (hn : 0 < plain.length) (hcf : CipherFits w (maxPacketSize ctLen) (waveSize ctLen w) enc dec)
    (hz : plain.length % waveSize ctLen w = 0)
    (hodd : ∀ i pt, pt.length = waveSize ctLen w → (enc i pt).length % maxPacketSize ctLen ≠ 0)
    (hs : sendGroup ctLen w enc false plain e = some (c, ps)) (xs : List Wire) :
    ∀ s ∈ (deliverWire dec m (newRecv c) xs).2, endsGroup s = false := by
  obtain ⟨_, _, hc⟩ := send_spec hw hn hcf (fun h => by cases h) hs
  have hM : 0 < maxPacketSize ctLen := by have := maxPacketSize_pos ctLen; omega
  have hP := waveSize_pos (ctLen := ctLen) hw
  have hd := divCeil_eq_div_add (n := plain.length) hP
  rw [if_pos hz, Nat.add_zero] at hd
  have hN : 0 < divCeil plain.length (waveSize ctLen w) := by rw [lt_divCeil hP]; simpa using hn
  have g1 : c.maxPlain = waveSize ctLen w := by rw [hc]; rfl
  have g2 : c.maxPayload = maxPacketSize ctLen := by rw [hc]; rfl
  have g3 : c.maxPackets = w := by rw [hc]; rfl
  have g4 : c.waveCount = divCeil plain.length (waveSize ctLen w) := by
    rw [hc, hd]; show plain.length / waveSize ctLen w + _ = _; rw [if_pos hz, Nat.add_zero]
  have hlast : (chunk (waveSize ctLen w) plain (divCeil plain.length (waveSize ctLen w) - 1)).length = waveSize ctLen w := by
    rw [length_chunk, hd]
    have h1 := Nat.div_add_mod plain.length (waveSize ctLen w)
    rw [hz, Nat.add_zero, Nat.mul_comm] at h1
    obtain ⟨q, hq⟩ : ∃ q, plain.length / waveSize ctLen w = q + 1 := ⟨plain.length / waveSize ctLen w - 1, by omega⟩
    rw [hq] at h1 ⊢
    rw [Nat.add_mul] at h1
    rw [Nat.add_sub_cancel]
    omega
  generalize hL : (ctOf c enc plain (divCeil plain.length (waveSize ctLen w) - 1)).length = L at hc
  have hLb : (w - 1) * maxPacketSize ctLen < L ∧ L ≤ w * maxPacketSize ctLen ∧ L % maxPacketSize ctLen ≠ 0 := by
    rw [← hL, ctOf, g1]
    exact ⟨(hcf.full _ _ hlast).1, (hcf.full _ _ hlast).2, hodd _ _ hlast⟩
  have hin : divCeil L (maxPacketSize ctLen) = w := divCeil_of_between hM hw hLb.1 hLb.2.1
  have hbuf : (newWave c (c.waveCount - 1)).buf.length = L := by
    unfold newWave
    rw [if_pos rfl, List.length_replicate, g2]
    have e1 : c.packetsInLast = divCeil L (maxPacketSize ctLen) := by rw [hc]; rfl
    have e2 : c.lastPayload = if L % maxPacketSize ctLen = 0 then maxPacketSize ctLen else L % maxPacketSize ctLen := by
      rw [hc]; rfl
    rw [e1, e2]
    exact divCeil_mod hM (by omega)
  have hLlt : L < w * maxPacketSize ctLen := by
    rcases Nat.lt_or_ge L (w * maxPacketSize ctLen) with h | h
    · exact h
    · exact absurd (by rw [show L = w * maxPacketSize ctLen by omega]; exact Nat.mul_mod_left _ _) hLb.2.2
  have hneed : (c.waveCount - 1) * w + w ≤ c.packetsNeeded - 1 := by
    have e1 : c.packetsNeeded = plain.length / waveSize ctLen w * w + w := by
      rw [hc]; show plain.length / waveSize ctLen w * w + divCeil L (maxPacketSize ctLen) = _; rw [hin]
    have e2 : (c.waveCount - 1) * w + w = c.waveCount * w := by
      rw [← Nat.succ_mul, Nat.succ_eq_add_one, Nat.sub_add_cancel (by omega)]
    rw [e1, e2, g4, hd]
    omega
  have hinit : Stuck c w (c.waveCount - 1) (newRecv c) := by
    refine ⟨rfl, newWave c (c.waveCount - 1), if_pos (by omega), ?_, rfl, ?_⟩
    · unfold newWave
      rw [if_pos rfl]
      show c.packetsInLast = w
      rw [hc, ← hin]; rfl
    · rw [(length_newWave c _).1]; exact Nat.zero_le _
  have hst := stuck_deliver (dec := dec) hw g3 hneed (by rw [hbuf, g2]; exact ⟨hLb.1, hLlt⟩) (xs.filterMap (fromWire m))
    (newRecv c) hinit ?_
  · intro s hs
    rw [Bool.eq_false_iff]
    intro hend
    have hfin := (deliver_ends (dec := dec) (xs.filterMap (fromWire m)) (newRecv c)
      (fun i hi => if_neg (by simpa [newRecv] using hi))).2 ⟨s, hs, hend⟩
    obtain ⟨v, hv, _⟩ := hst.wave
    have := hfin.1 (c.waveCount - 1) (by rw [deliver_cfg]; show c.waveCount - 1 < c.waveCount; omega)
    rw [hv] at this
    cases this
  · intro p hp hpw
    rw [List.mem_filterMap] at hp
    obtain ⟨x, _, hx⟩ := hp
    obtain ⟨_, k, hk, hseq⟩ := fromWire_some hx
    rw [hm.length] at hk hseq
    exact ⟨k, hk, by rw [hseq, hpw]⟩

/-- The hypotheses are met: 20000 bytes, three waves, every packet sent twice. -/
example : ∃ (c : Cfg) (ps : List Packet) (xs : List Wire), sendGroup symCt 14 toyEnc true (List.replicate 20000 7) false = some (c, ps) ∧
    (∀ x, x ∈ xs ↔ x ∈ ps.filterMap (toWire sampleMapping)) ∧
    finalize (deliverWire toyDec sampleMapping (newRecv c) xs).1 = List.replicate 20000 7 := by
  have hl : (List.replicate 20000 (7 : UInt8)).length = 20000 := List.length_replicate
  generalize List.replicate 20000 (7 : UInt8) = plain at hl ⊢
  obtain ⟨c, ps, hs⟩ := C12_sender_accepts (ctLen := symCt) (w := 14) toyEnc true false (plain := plain) (by omega)
  have hx : ∀ x, x ∈ ps.filterMap (toWire sampleMapping) ++ ps.filterMap (toWire sampleMapping) ↔
      x ∈ ps.filterMap (toWire sampleMapping) := by intro x; simp
  refine ⟨c, ps, _, hs, hx, ?_⟩
  exact (C12_symmetric_partial toy_symmetric sampleMapping_ok (by omega) (by rw [hl]; decide) (fun _ => by rw [hl]; decide) hs hx).1

/-- The hypotheses of `C12_counterexample_hybrid` are met by a cipher that adds 100 bytes, with packets of 1008 bytes. -/
example : CipherFits 14 (maxPacketSize fun _ => 1000) (waveSize (fun _ => 1000) 14)
      (fun _ pt => List.replicate 100 0 ++ pt) (fun x => some (x.drop 100)) ∧
    ∀ (_ : Nat) (pt : Bytes), pt.length = waveSize (fun _ => 1000) 14 →
      (List.replicate 100 (0 : UInt8) ++ pt).length % maxPacketSize (fun _ => 1000) ≠ 0 := by
  have h1 : maxPacketSize (fun _ => 1000) = 1008 := by decide
  have h2 : waveSize (fun _ => 1000) 14 = 13584 := by decide
  rw [h1, h2]
  refine ⟨⟨?_, ?_, ?_⟩, ?_⟩
  · intro i pt h; rw [List.length_append, List.length_replicate, h]; omega
  · intro i pt h3 h4; rw [List.length_append, List.length_replicate]; omega
  · intro i pt
    rw [List.drop_left' (List.length_replicate)]
  · intro _ pt h; rw [List.length_append, List.length_replicate, h]; decide

/-! ### C13 -/

theorem sym_metadata {n : Nat} (hn : 0 < n) (e : Bool) :
    metadata symCt 14 n e = some (newRefresh n 504 (n / 7032) (if n % 7032 = 0 then 0 else 1) 7032
      (if n % 7032 = 0 then 7032 else n % 7032) 14 (if n % 7032 = 0 then 0 else 8 + symCt (n % 7032)) e) := by
  rw [metadata_eq hn]
  have h1 : maxPacketSize symCt = 504 := sym_sizes.1
  rw [h1]

theorem validate_refresh {n ctLast : Nat} {e : Bool} (hn : 0 < n) (hct : ctLast ≤ 7056) :
    validate (newRefresh n 504 (n / 7032) (if n % 7032 = 0 then 0 else 1) 7032
      (if n % 7032 = 0 then 7032 else n % 7032) 14 ctLast e) = true ↔ n ≤ maxBytesPerGroup ∧ 0 < ctLast := by
  have hd : n % 7032 < 7032 := Nat.mod_lt _ (by omega)
  have hnd := Nat.div_add_mod n 7032
  have hin : 0 < divCeil ctLast 504 ↔ 0 < ctLast := by rw [lt_divCeil (by omega), Nat.zero_mul]
  have hin2 : divCeil ctLast 504 ≤ 14 := by
    have : ¬ 14 < divCeil ctLast 504 := by rw [lt_divCeil (by omega)]; omega
    omega
  have hm : ctLast % 504 < 504 := Nat.mod_lt _ (by omega)
  unfold validate newRefresh maxBytesPerGroup
  simp only [Bool.and_eq_true, decide_eq_true_eq]
  generalize divCeil ctLast 504 = k at hin hin2 ⊢
  generalize ctLast % 504 = rm at hm ⊢
  generalize n / 7032 = q at hnd ⊢
  generalize n % 7032 = m at hnd hd ⊢
  by_cases hz : m = 0
  · rw [if_pos hz, if_pos hz]
    constructor
    · intro h; omega
    · intro h
      have : 0 < k := hin.2 h.2
      split <;> and_intros <;> first | omega | trivial
  · rw [if_neg hz, if_neg hz]
    constructor
    · intro h; omega
    · intro h
      have : 0 < k := hin.2 h.2
      split <;> and_intros <;> first | omega | trivial

/-- C13 (file transfers, symmetric algorithms): the receiver accepts the announced group exactly when its length is not a
multiple of 7032. -/
theorem C13_file_transfer_partial (n : Nat) (hn : 0 < n) (hmax : n ≤ maxBytesPerGroup) (e : Bool) :
    ∃ c, metadata symCt 14 n e = some c ∧ (validate c = true ↔ n % 7032 ≠ 0) := by
  refine ⟨_, sym_metadata hn e, ?_⟩
  have hd : n % 7032 < 7032 := Nat.mod_lt _ (by omega)
  rw [validate_refresh hn (by unfold symCt; split <;> omega)]
  constructor
  · rintro ⟨_, h⟩ hz; rw [if_pos hz] at h; omega
  · intro h; rw [if_neg h]; exact ⟨hmax, by omega⟩

/-- C13 (locally pre-encrypted transfers): the recomputed description is accepted, up to the size limit. -/
theorem C13_refreshed {enc : Nat → Bytes → Bytes} {dec : Bytes → Option Bytes} (hsym : Symmetric enc dec) {plain : Bytes}
    {e : Bool} {c : Cfg} {ps : List Packet} (hn : 0 < plain.length) (hs : sendGroup symCt 14 enc false plain e = some (c, ps)) :
    validate c = true ↔ plain.length ≤ maxBytesPerGroup := by
  obtain ⟨_, _, hc⟩ := send_spec (by omega) hn hsym.fits (fun h => by cases h) hs
  have g1 : c.maxPlain = waveSize symCt 14 := by rw [hc]; rfl
  have hP := waveSize_pos (ctLen := symCt) (w := 14) (by omega)
  have hN : 0 < divCeil plain.length (waveSize symCt 14) := by rw [lt_divCeil hP]; simpa using hn
  have hb := enc_le hsym.fits hP (plain := plain) (i := divCeil plain.length (waveSize symCt 14) - 1) (by omega)
  generalize hL : (ctOf c enc plain (divCeil plain.length (waveSize symCt 14) - 1)).length = L at hc
  rw [ctOf, g1] at hL
  rw [hL, sym_sizes.1] at hb
  rw [sym_sizes.1, sym_sizes.2] at hc
  rw [hc, validate_refresh hn (by omega)]
  exact ⟨fun h => h.1, fun h => ⟨h, hb.1⟩⟩

/-- C13 is false: an honest file transfer of 7032 bytes (or any multiple) is rejected by the receiver. -/
theorem C13_counterexample (k : Nat) (hk : 0 < k) (e : Bool) :
    ∃ c, metadata symCt 14 (7032 * k) e = some c ∧ validate c = false := by
  refine ⟨_, sym_metadata (by omega) e, ?_⟩
  rw [Bool.eq_false_iff]
  intro h
  rw [validate_refresh (by omega) (by unfold symCt; have : 7032 * k % 7032 < 7032 := Nat.mod_lt _ (by omega); split <;> omega)] at h
  rw [if_pos (by omega)] at h
  omega

/-- C13 is false: a full-size group grows by local pre-encryption and is rejected. -/
theorem C13_counterexample_preencrypted {enc : Nat → Bytes → Bytes} {dec : Bytes → Option Bytes} (hsym : Symmetric enc dec)
    {file locallyEncrypted : Bytes} (hfile : file.length = maxBytesPerGroup) (hgrow : file.length < locallyEncrypted.length)
    {e : Bool} {c : Cfg} {ps : List Packet} (hs : sendGroup symCt 14 enc false locallyEncrypted e = some (c, ps)) :
    validate c = false := by
  rw [Bool.eq_false_iff]
  intro h
  rw [C13_refreshed hsym (by omega) hs] at h
  omega

/-! ### C14 -/

/-- C14: a repeated packet changes nothing at all, in any state of any receiver. -/
theorem C14_repeat_changes_nothing (dec : Bytes → Option Bytes) (r : Recv) (p q : Packet) (h : q.seq = p.seq)
    (hin : p.seq < r.cfg.packetsNeeded) :
    onPacket dec (onPacket dec r p).1 q = ((onPacket dec r p).1, .already) := by
  refine onPacket_already (by rw [onPacket_cfg, h]; exact hin) ?_
  rw [(onPacket_got r p).1, if_pos hin, h, setFn_same]

/-- C14: after any packets, valid or not, the receiver has counted every distinct in-range packet once. -/
theorem C14_counts_each_once (dec : Bytes → Option Bytes) (c : Cfg) (ps : List Packet) :
    (deliver dec (newRecv c) ps).1.received =
      ((List.range c.packetsNeeded).filter fun s => decide (∃ p ∈ ps, p.seq = s)).length := by
  have h := deliver_received (dec := dec) ps (newRecv c) (tally_false _ _).symm
  rw [h]
  show tally (deliver dec (newRecv c) ps).1.got (fun _ => 1) c.packetsNeeded = _
  have : ∀ k, k ≤ c.packetsNeeded → tally (deliver dec (newRecv c) ps).1.got (fun _ => 1) k =
      ((List.range k).filter fun s => decide (∃ p ∈ ps, p.seq = s)).length := by
    intro k
    induction k with
    | zero => intro _; rfl
    | succ k ih =>
      intro hk
      rw [List.range_succ, List.filter_append, List.length_append, ← ih (by omega)]
      simp only [tally]
      congr 1
      have hg := deliver_got (dec := dec) ps (newRecv c) k (by show k < c.packetsNeeded; omega)
      have hn : ¬ (newRecv c).got k = true := by simp [newRecv]
      by_cases hex : ∃ p ∈ ps, p.seq = k
      · rw [if_pos (hg.2 (.inr hex))]
        simp [hex]
      · rw [if_neg (fun h => (hg.1 h).elim hn hex)]
        simp [hex]
  exact this _ (Nat.le_refl _)

/-- C14: whatever arrives, no wave is reported finished twice, the group is reported finished at most once, and then every wave
has been taken and exactly the announced number of bytes has been written. -/
theorem C14_finishes_once (dec : Bytes → Option Bytes) (c : Cfg) (ps : List Packet) :
    (∀ i, ((deliver dec (newRecv c) ps).2.filter (endsWave i)).length ≤ 1) ∧
      ((deliver dec (newRecv c) ps).2.filter endsGroup).length ≤ 1 ∧
      ((∃ s ∈ (deliver dec (newRecv c) ps).2, endsGroup s = true) →
        (∀ i < c.waveCount, (deliver dec (newRecv c) ps).1.store i = none) ∧
        (deliver dec (newRecv c) ps).1.plainWritten = (deliver dec (newRecv c) ps).1.slab.length) := by
  have ho : ∀ i, (newRecv c).cfg.waveCount ≤ i → (newRecv c).store i = none := fun i hi => if_neg (by simpa [newRecv] using hi)
  refine ⟨fun i => deliver_once ps i _, (deliver_ends ps _ ho).1, fun h => ?_⟩
  have := (deliver_ends ps _ ho).2 h
  exact ⟨by have h1 := this.1; rw [deliver_cfg] at h1; exact h1, this.2⟩

/-! ### C68: hostile descriptions -/

/-- C68 is false: the receiver accepts this description, and one packet then makes it panic. -/
theorem C68_counterexample :
    let c : Cfg := { packetsNeeded := 15, maxPackets := 14, plainLen := 2, maxPayload := 2, lastPayload := 1, fullWaves := 1
                     partialWaves := 0, waveCount := 1, maxPlain := 2, lastPlain := 2, packetsInLast := 1, emptyTransfer := false }
    validate c = true ∧
      (deliverWire some sampleMapping (newRecv c) [⟨0, [5, 8, 1]⟩]).2 = [.panic] := by
  decide

/-- The same with a wave wider than the port mapping. -/
theorem C68_counterexample_wide :
    let c : Cfg := { packetsNeeded := 41, maxPackets := 20, plainLen := 5, maxPayload := 2, lastPayload := 1, fullWaves := 2
                     partialWaves := 1, waveCount := 3, maxPlain := 2, lastPlain := 1, packetsInLast := 1, emptyTransfer := false }
    validate c = true ∧
      (deliverWire some sampleMapping (newRecv c) [⟨2, [5, 8, 1]⟩]).2 = [.panic] := by
  decide

/-- Widths agree, and the last wave is either partial or as large as the others. -/
structure Regular (c : Cfg) (w : Nat) : Prop where
  width : c.maxPackets = w
  last : c.partialWaves = 1 ∨ (c.packetsInLast = w ∧ c.lastPayload = c.maxPayload)

theorem buf_invariant {c : Cfg} {dec : Bytes → Option Bytes} (ps : List Packet) : ∀ r : Recv, r.cfg = c →
    (∀ i v, r.store i = some v → i < c.waveCount ∧ v.buf.length = (newWave c i).buf.length) →
    (∀ s ∈ (deliver dec r ps).2, s ≠ .panic) ∨ ∃ p ∈ ps, ∃ i v, p.wave = i ∧ i < c.waveCount ∧
      v.buf.length = (newWave c i).buf.length ∧ p.seq < c.packetsNeeded ∧ insertPacket c p.seq v p.payload = .error .panic := by
  induction ps with
  | nil => intro r _ _; left; intro s hs; cases hs
  | cons p ps ih =>
    intro r hc h
    have hpres : ∀ i v, (onPacket dec r p).1.store i = some v → i < c.waveCount ∧ v.buf.length = (newWave c i).buf.length := by
      intro i v hv
      by_cases hip : p.wave = i
      · subst hip
        revert hv
        unfold onPacket
        split
        · split
          · intro hv; exact h _ v hv
          · dsimp only
            split
            · intro hv; exact h _ v hv
            · next u hu =>
              split
              · intro hv; exact h _ v hv
              · next u' hu' =>
                have hlen := insertPacket_ok hu'
                split
                · unfold finishWave
                  dsimp only
                  split
                  · dsimp only; rw [setFn_same]; intro hv; cases hv
                  · split
                    · dsimp only; rw [setFn_same]; intro hv; cases hv
                    · split
                      · split <;> (dsimp only; rw [setFn_same]; intro hv; cases hv)
                      · dsimp only; rw [setFn_same]; intro hv; cases hv
                · dsimp only
                  rw [setFn_same]
                  intro hv
                  cases hv
                  exact ⟨(h _ u hu).1, by rw [hlen.1]; exact (h _ u hu).2⟩
        · intro hv; exact h _ v hv
      · rw [onPacket_store_other dec r p i hip] at hv
        exact h i v hv
    by_cases hp : (onPacket dec r p).2 = .panic
    · right
      refine ⟨p, by simp, ?_⟩
      revert hp
      unfold onPacket
      split
      · next hlt =>
        split
        · intro hp; cases hp
        · dsimp only
          split
          · intro hp; cases hp
          · next u hu =>
            split
            · next s hs =>
              intro hp
              dsimp only at hp
              rw [hp] at hs
              rw [hc] at hs hlt
              exact ⟨p.wave, u, rfl, (h _ u hu).1, (h _ u hu).2, hlt, hs⟩
            · split
              · unfold finishWave
                dsimp only
                split
                · intro hp; cases hp
                · split
                  · intro hp; cases hp
                  · split
                    · split <;> (intro hp; cases hp)
                    · intro hp; cases hp
              · intro hp; cases hp
      · intro hp; cases hp
    · rcases ih (onPacket dec r p).1 (by rw [onPacket_cfg, hc]) hpres with h1 | ⟨q, hq, h1⟩
      · left
        intro s hs
        rcases List.mem_cons.1 hs with hs | hs
        · rw [hs]; exact hp
        · exact h1 s hs
      · exact .inr ⟨q, by simp [hq], h1⟩

/-- C68: an accepted regular description never makes the receiver panic, whatever arrives from the wire. -/
theorem C68_no_panic_partial {c : Cfg} {m : List (Nat × Nat)} (dec : Bytes → Option Bytes) (hv : validate c = true)
    (hreg : Regular c m.length) (xs : List Wire) : ∀ s ∈ (deliverWire dec m (newRecv c) xs).2, s ≠ .panic := by
  unfold validate at hv
  simp only [Bool.and_eq_true, decide_eq_true_eq] at hv
  obtain ⟨⟨⟨⟨⟨⟨⟨⟨⟨⟨⟨⟨⟨_, v2⟩, v3⟩, v4⟩, v5⟩, v6⟩, v7⟩, v8⟩, v9⟩, v10⟩, v11⟩, _⟩, _⟩, _⟩ := hv
  have hinit : ∀ i v, (newRecv c).store i = some v → i < c.waveCount ∧ v.buf.length = (newWave c i).buf.length := by
    intro i v hv
    simp only [newRecv] at hv
    split at hv
    · next hi => cases hv; exact ⟨hi, rfl⟩
    · cases hv
  rcases buf_invariant (c := c) (dec := dec) (xs.filterMap (fromWire m)) (newRecv c) rfl hinit with h | ⟨p, hp, i, v, hpi, hi, hbuf, hseq, hpan⟩
  · exact h
  · exfalso
    rw [List.mem_filterMap] at hp
    obtain ⟨x, _, hx⟩ := hp
    obtain ⟨_, k, hk, hs⟩ := fromWire_some hx
    rw [← hreg.width] at hk hs
    rw [hpi] at hs
    have hlast := hreg.last
    rw [← hreg.width] at hlast
    have hmod : p.seq % c.maxPackets = k := by rw [hs, Nat.mul_comm, Nat.mul_add_mod, Nat.mod_eq_of_lt hk]
    unfold insertPacket insertionRange at hpan
    rw [hmod] at hpan
    have hkm : (k + 1) * c.maxPayload = c.maxPayload + c.maxPayload * k := by rw [Nat.add_mul, Nat.mul_comm k]; omega
    have hlastlen : i = c.waveCount - 1 → v.buf.length = (c.packetsInLast - 1) * c.maxPayload + c.lastPayload := by
      intro hil; rw [hbuf, newWave, if_pos hil, List.length_replicate]
    have hotherlen : i ≠ c.waveCount - 1 → v.buf.length = c.maxPayload * c.maxPackets := by
      intro hil; rw [hbuf, newWave, if_neg hil, List.length_replicate]
    -- the range of the packet lies inside the buffer
    have key : ∀ a b, (if p.seq = c.packetsNeeded - 1 then
          if v.buf.length < c.lastPayload then none else some (v.buf.length - c.lastPayload, v.buf.length)
        else some (c.maxPayload * k, c.maxPayload + c.maxPayload * k)) = some (a, b) → a ≤ b ∧ b ≤ v.buf.length := by
      intro a b hab
      split at hab
      · split at hab
        · cases hab
        · cases hab; omega
      · next hne =>
        cases hab
        refine ⟨by omega, ?_⟩
        rw [← hkm]
        by_cases hil : i = c.waveCount - 1
        · rw [hlastlen hil]
          rcases hlast with hp1 | ⟨hp1, hp2⟩
          · have hfw : i = c.fullWaves := by omega
            rw [hfw] at hs
            have : (k + 1) * c.maxPayload ≤ (c.packetsInLast - 1) * c.maxPayload := Nat.mul_le_mul_right _ (by omega)
            omega
          · have h1 : (k + 1) * c.maxPayload ≤ c.packetsInLast * c.maxPayload := Nat.mul_le_mul_right _ (by omega)
            have h2 : c.packetsInLast * c.maxPayload = (c.packetsInLast - 1) * c.maxPayload + c.maxPayload := by
              rw [← Nat.succ_mul, Nat.succ_eq_add_one, Nat.sub_add_cancel (by omega)]
            omega
        · rw [hotherlen hil, Nat.mul_comm c.maxPayload c.maxPackets]
          exact Nat.mul_le_mul_right _ (by omega)
    have hsome : (if p.seq = c.packetsNeeded - 1 then
          if v.buf.length < c.lastPayload then none else some (v.buf.length - c.lastPayload, v.buf.length)
        else some (c.maxPayload * k, c.maxPayload + c.maxPayload * k)) ≠ none := by
      split
      · next heq =>
        have hil : i = c.waveCount - 1 := by
          rcases hlast with hp1 | ⟨hp1, hp2⟩
          · by_contra hil
            have : (i + 1) * c.maxPackets ≤ c.fullWaves * c.maxPackets := Nat.mul_le_mul_right _ (by omega)
            rw [Nat.add_mul] at this
            omega
          · by_contra hil
            have : (i + 1) * c.maxPackets ≤ c.fullWaves * c.maxPackets := Nat.mul_le_mul_right _ (by omega)
            rw [Nat.add_mul] at this
            omega
        rw [if_neg (by rw [hlastlen hil]; omega)]
        exact Option.some_ne_none _
      · exact Option.some_ne_none _
    dsimp only at hpan
    split at hpan
    · next hnone => exact hsome hnone
    · next a b hab =>
      have hk2 := key a b hab
      split at hpan
      · rw [if_neg (by omega)] at hpan
        split at hpan <;> cases hpan
      · cases hpan

end Verif.Splitter

import Verif.Splitter.Sender
import Verif.Splitter.Hostile
import Mathlib.Tactic.NormNum
/-
Wire coordinates, and the honest sender's configurations.
-/
namespace Verif.Splitter
open Verif

/-! ### Coordinates -/

/-- Two shuffles of `0..w`. -/
structure IsMapping (w : Nat) (m : List (Nat × Nat)) : Prop where
  shuffles : ∃ inputs outputs, List.Perm inputs (List.range w) ∧ List.Perm outputs (List.range w) ∧ m = portMapping inputs outputs

theorem IsMapping.length {w : Nat} {m : List (Nat × Nat)} (h : IsMapping w m) : m.length = w := by
  obtain ⟨a, b, ha, hb, e⟩ := h.shuffles
  rw [e, portMapping, List.length_zip, ha.length_eq, hb.length_eq, List.length_range, Nat.min_self]

theorem IsMapping.lt {w : Nat} {m : List (Nat × Nat)} (h : IsMapping w m) {p : Nat × Nat} (hp : p ∈ m) : p.1 < w ∧ p.2 < w := by
  obtain ⟨a, b, ha, hb, e⟩ := h.shuffles
  rw [e, portMapping] at hp
  have := List.of_mem_zip hp
  exact ⟨List.mem_range.1 (ha.mem_iff.1 this.1), List.mem_range.1 (hb.mem_iff.1 this.2)⟩

/-- Two positions holding the same local port are the same position. -/
theorem IsMapping.inj {w : Nat} {m : List (Nat × Nat)} (h : IsMapping w m) {i j : Nat} {p q : Nat × Nat}
    (hi : m[i]? = some p) (hj : m[j]? = some q) (he : p.1 = q.1) : i = j := by
  obtain ⟨a, b, ha, hb, e⟩ := h.shuffles
  subst e
  have hnd : a.Nodup := ha.nodup_iff.2 List.nodup_range
  rw [portMapping, List.getElem?_zip_eq_some] at hi hj
  have h1 := hi.1
  have h2 := hj.1
  rw [← he] at h2
  exact (List.getElem?_inj (List.getElem?_eq_some_iff.1 h1).1 hnd).1 (h1.trans h2.symm)

theorem findIdx_mapping {w : Nat} {m : List (Nat × Nat)} (h : IsMapping w m) {i : Nat} {p : Nat × Nat} (hi : m[i]? = some p) :
    (m.findIdx? fun q => decide (q.1 = p.1 ∧ q.2 = p.2)) = some i := by
  rw [List.findIdx?_eq_some_iff_getElem]
  obtain ⟨l, e⟩ := List.getElem?_eq_some_iff.1 hi
  refine ⟨l, by simp [e], ?_⟩
  intro j hj hh
  simp only [decide_eq_true_eq] at hh
  have := h.inj (i := j) (j := i) (List.getElem?_eq_getElem (by omega)) hi hh.1
  omega

theorem coordinates_roundtrip {w : Nat} {m : List (Nat × Nat)} (hw : 0 < w) (h : IsMapping w m) {i : Nat}
    (hi : i / w < 2 ^ 32) :
    ∃ v, packetVector m i = some v ∧ v.1 = i / w ∧ v.2.1 < w ∧ v.2.2 < w ∧ coordinatesInv m v.1 v.2.1 v.2.2 = some i := by
  have hl := h.length
  have hlt : i % m.length < m.length := Nat.mod_lt _ (by omega)
  refine ⟨(i / w, m[i % m.length].1, m[i % m.length].2), ?_, rfl, ?_, ?_, ?_⟩
  · unfold packetVector
    rw [List.getElem?_eq_getElem hlt, Option.map_some, Nat.mod_eq_of_lt (by rw [hl]; exact hi)]
    congr 2
    rw [hl]
  · exact (h.lt (List.getElem_mem hlt)).1
  · exact (h.lt (List.getElem_mem hlt)).2
  · unfold coordinatesInv
    dsimp only
    rw [findIdx_mapping h (List.getElem?_eq_getElem hlt), Option.map_some, hl, Nat.mul_comm, Nat.div_add_mod]

theorem coordinatesInv_some {m : List (Nat × Nat)} {wave src dst i : Nat} (h : coordinatesInv m wave src dst = some i) :
    ∃ k, i = wave * m.length + k ∧ m[k]? = some (src, dst) := by
  unfold coordinatesInv at h
  rw [Option.map_eq_some_iff] at h
  obtain ⟨k, hk, e⟩ := h
  rw [List.findIdx?_eq_some_iff_getElem] at hk
  obtain ⟨l, hp, _⟩ := hk
  simp only [decide_eq_true_eq] at hp
  refine ⟨k, e.symm, ?_⟩
  rw [List.getElem?_eq_getElem l, ← hp.1, ← hp.2]

theorem fromWire_some {m : List (Nat × Nat)} {x : Wire} {p : Packet} (h : fromWire m x = some p) :
    p.wave = x.wave ∧ ∃ k, k < m.length ∧ p.seq = p.wave * m.length + k := by
  unfold fromWire at h
  split at h
  · rw [Option.map_eq_some_iff] at h
    obtain ⟨i, hi, e⟩ := h
    obtain ⟨k, hk, hm⟩ := coordinatesInv_some hi
    subst e
    exact ⟨rfl, k, (List.getElem?_eq_some_iff.1 hm).1, hk⟩
  · cases h

/-- Port bytes survive; a changed wave id moves the packet by whole waves. -/
theorem wire_roundtrip {w : Nat} {m : List (Nat × Nat)} (hw : 0 < w) (hw2 : w ≤ 256) (h : IsMapping w m) {p : Packet}
    (hp : p.wave = p.seq / w) (hi : p.seq / w < 2 ^ 32) :
    ∃ x, toWire m p = some x ∧ x.wave = p.wave ∧
      ∀ wave', fromWire m { x with wave := wave' } = some ⟨wave' * w + p.seq % w, wave', p.payload⟩ := by
  obtain ⟨v, h1, h2, h3, h4, h5⟩ := coordinates_roundtrip hw h hi
  refine ⟨⟨v.1, UInt8.ofNat v.2.1 :: UInt8.ofNat v.2.2 :: p.payload⟩, ?_, ?_, ?_⟩
  · unfold toWire; rw [h1]; rfl
  · rw [hp]; exact h2
  · intro wave'
    unfold fromWire
    dsimp only
    have e1 : (UInt8.ofNat v.2.1).toNat = v.2.1 := by rw [UInt8.toNat_ofNat']; exact Nat.mod_eq_of_lt (by omega)
    have e2 : (UInt8.ofNat v.2.2).toNat = v.2.2 := by rw [UInt8.toNat_ofNat']; exact Nat.mod_eq_of_lt (by omega)
    rw [e1, e2]
    have hl := h.length
    unfold coordinatesInv at h5 ⊢
    rw [Option.map_eq_some_iff] at h5
    obtain ⟨k, hk, e⟩ := h5
    have hk' : k = p.seq % w := by
      rw [h2, hl] at e
      have := Nat.div_add_mod p.seq w
      rw [Nat.mul_comm] at this
      omega
    rw [hk, hk', hl]
    rfl

theorem wire_self {w : Nat} {m : List (Nat × Nat)} (hw : 0 < w) (hw2 : w ≤ 256) (h : IsMapping w m) {p : Packet}
    (hp : p.wave = p.seq / w) (hi : p.seq / w < 2 ^ 32) : ∃ x, toWire m p = some x ∧ fromWire m x = some p := by
  obtain ⟨x, h1, h2, h3⟩ := wire_roundtrip hw hw2 h hp hi
  refine ⟨x, h1, ?_⟩
  have := h3 p.wave
  rw [← h2, h2] at this
  rw [show x = { x with wave := p.wave } by rw [← h2], this]
  have e : p.wave * w + p.seq % w = p.seq := by rw [hp, Nat.mul_comm, Nat.div_add_mod]
  rw [e]

/-! ### The refreshed configuration -/

theorem fits_refresh {w M P : Nat} {dec : Bytes → Option Bytes} {ct : Nat → Bytes} {plain : Bytes} {lastPlain : Nat} {e : Bool}
    {c : Cfg}
    (hc : c = newRefresh plain.length M (plain.length / P) (if plain.length % P = 0 then 0 else 1) P lastPlain w
      (ct (divCeil plain.length P - 1)).length e)
    (hw : 0 < w) (hM : 0 < M) (hP : 0 < P) (hn : 0 < plain.length)
    (hfull : ∀ i, i + 1 < divCeil plain.length P → (w - 1) * M < (ct i).length ∧ (ct i).length ≤ w * M)
    (hlast : 0 < (ct (divCeil plain.length P - 1)).length ∧ (ct (divCeil plain.length P - 1)).length ≤ w * M)
    (hmul : plain.length % P = 0 → (ct (divCeil plain.length P - 1)).length % M = 0)
    (hdec : ∀ i < divCeil plain.length P, dec (ct i) = some (chunk P plain i)) : Fits c w dec ct plain := by
  have hN : c.waveCount = divCeil plain.length P := by rw [hc, divCeil_eq_div_add hP]; rfl
  have hmx : c.maxPayload = M := by rw [hc]; rfl
  have hpl : c.maxPlain = P := by rw [hc]; rfl
  have hpk : c.maxPackets = w := by rw [hc]; rfl
  have hil : c.packetsInLast = divCeil (ct (divCeil plain.length P - 1)).length M := by rw [hc]; rfl
  have hNpos : 0 < divCeil plain.length P := by rw [lt_divCeil hP]; simpa using hn
  refine ⟨hw, by omega, by omega, hpk, by rw [hc]; rfl, hn, by rw [hN, hpl], ?_, ?_, ?_, ?_, ?_, ?_, ?_⟩
  · intro i hi
    rw [hN] at hi
    rw [hmx]
    exact divCeil_of_between hM hw (hfull i hi).1 (hfull i hi).2
  · rw [hN, hmx, hil]
  · rw [hil]
    have : ¬ w < divCeil (ct (divCeil plain.length P - 1)).length M := by rw [lt_divCeil hM]; omega
    omega
  · rw [hN]; exact hlast.1
  · rw [hN, hmx, hil]
    have : c.lastPayload = if (ct (divCeil plain.length P - 1)).length % M = 0 then M else
        (ct (divCeil plain.length P - 1)).length % M := by rw [hc]; rfl
    rw [this]
    exact divCeil_mod hM hlast.1
  · have hneed : c.packetsNeeded = plain.length / P * w + c.packetsInLast := by rw [hc]; rfl
    rw [hN, hneed, hmx]
    have hd := divCeil_eq_div_add (n := plain.length) hP
    by_cases hz : plain.length % P = 0
    · right
      rw [if_pos hz] at hd
      have hq : 0 < plain.length / P := by omega
      have e1 : plain.length / P * w = (divCeil plain.length P - 1) * w + w := by
        rw [← Nat.succ_mul]; congr 1; omega
      refine ⟨by omega, ?_⟩
      have h1 := divCeil_mod hM hlast.1
      rw [if_pos (hmul hz), ← hil] at h1
      have hpos : 0 < c.packetsInLast := by rw [hil, lt_divCeil hM]; simpa using hlast.1
      have : c.packetsInLast * M = (c.packetsInLast - 1) * M + M := by rw [← Nat.succ_mul]; congr 1; omega
      omega
    · left
      rw [if_neg hz] at hd
      rw [hd, Nat.add_sub_cancel]
  · intro i hi
    rw [hN] at hi
    rw [hpl]
    exact hdec i hi

/-- Facts about a cipher used by the splitter with payload size `M`, `w` packets and `P` plaintext bytes per wave. -/
structure CipherFits (w M P : Nat) (enc : Nat → Bytes → Bytes) (dec : Bytes → Option Bytes) : Prop where
  full : ∀ i pt, pt.length = P → (w - 1) * M < (enc i pt).length ∧ (enc i pt).length ≤ w * M
  short : ∀ i pt, 0 < pt.length → pt.length < P → 0 < (enc i pt).length ∧ (enc i pt).length ≤ w * M
  dec : ∀ i pt, dec (enc i pt) = some pt

theorem length_chunk_full {P : Nat} {plain : Bytes} {i : Nat} (hP : 0 < P) (hi : i + 1 < divCeil plain.length P) :
    (chunk P plain i).length = P := by
  rw [lt_divCeil hP, Nat.add_mul] at hi
  rw [length_chunk]; omega

theorem length_chunk_pos {P : Nat} {plain : Bytes} {i : Nat} (hP : 0 < P) (hi : i < divCeil plain.length P) :
    0 < (chunk P plain i).length ∧ (chunk P plain i).length ≤ P := by
  rw [lt_divCeil hP] at hi
  rw [length_chunk]; omega

theorem enc_le {w M P : Nat} {enc : Nat → Bytes → Bytes} {dec : Bytes → Option Bytes} (h : CipherFits w M P enc dec)
    (hP : 0 < P) {plain : Bytes} {i : Nat} (hi : i < divCeil plain.length P) :
    0 < (enc i (chunk P plain i)).length ∧ (enc i (chunk P plain i)).length ≤ w * M := by
  obtain ⟨h1, h2⟩ := length_chunk_pos hP hi
  by_cases hp : (chunk P plain i).length = P
  · have := h.full i _ hp
    omega
  · exact h.short i _ h1 (by omega)

theorem packets_congr {c c' : Cfg} {w : Nat} {enc : Nat → Bytes → Bytes} {plain : Bytes} (h1 : c.maxPlain = c'.maxPlain)
    (h2 : c.maxPayload = c'.maxPayload) (h3 : c.maxPackets = c'.maxPackets) :
    packets c w enc plain = packets c' w enc plain := by
  unfold packets wavePackets; rw [h1, h2, h3]

/-- Plaintext bytes per full wave. -/
def waveSize (ctLen : Nat → Nat) (w : Nat) : Nat := maxPacketSize ctLen * w - (maxPacketSize ctLen - 480)

theorem maxPacketSize_pos (ctLen : Nat → Nat) : 16 ≤ maxPacketSize ctLen := Nat.le_max_right _ _

theorem waveSize_pos {ctLen : Nat → Nat} {w : Nat} (hw : 0 < w) : 0 < waveSize ctLen w := by
  have h := maxPacketSize_pos ctLen
  have : maxPacketSize ctLen ≤ maxPacketSize ctLen * w := Nat.le_mul_of_pos_right _ hw
  unfold waveSize; omega

theorem send_spec {ctLen : Nat → Nat} {w : Nat} {enc : Nat → Bytes → Bytes} {dec : Bytes → Option Bytes} {plain : Bytes} {e fixed : Bool}
    {c : Cfg} {ps : List Packet} (hw : 0 < w) (hn : 0 < plain.length)
    (hcf : CipherFits w (maxPacketSize ctLen) (waveSize ctLen w) enc dec)
    (hfix : fixed = true → plain.length % waveSize ctLen w ≠ 0 ∧
      ∀ i pt, 0 < pt.length → pt.length < waveSize ctLen w → (enc i pt).length = 8 + ctLen pt.length)
    (hs : sendGroup ctLen w enc fixed plain e = some (c, ps)) :
    ps = packets c w enc plain ∧
    (∀ p, p ∈ ps ↔ Genuine c w (ctOf c enc plain) p) ∧
    c = newRefresh plain.length (maxPacketSize ctLen) (plain.length / waveSize ctLen w)
      (if plain.length % waveSize ctLen w = 0 then 0 else 1) (waveSize ctLen w)
      (if plain.length % waveSize ctLen w = 0 then waveSize ctLen w else plain.length % waveSize ctLen w) w
      (ctOf c enc plain (divCeil plain.length (waveSize ctLen w) - 1)).length e := by
  have hM : 0 < maxPacketSize ctLen := by have := maxPacketSize_pos ctLen; omega
  have hP := waveSize_pos (ctLen := ctLen) hw
  have hN : 0 < divCeil plain.length (waveSize ctLen w) := by rw [lt_divCeil hP]; simpa using hn
  unfold sendGroup at hs
  rw [metadata_eq hn, Option.map_some] at hs
  rw [show maxPacketSize ctLen * w - (maxPacketSize ctLen - 480) = waveSize ctLen w from rfl] at hs
  -- the configuration before refreshing
  generalize hc0 : newRefresh plain.length (maxPacketSize ctLen) (plain.length / waveSize ctLen w)
      (if plain.length % waveSize ctLen w = 0 then 0 else 1) (waveSize ctLen w)
      (if plain.length % waveSize ctLen w = 0 then waveSize ctLen w else plain.length % waveSize ctLen w) w
      (if plain.length % waveSize ctLen w = 0 then 0 else 8 + ctLen (plain.length % waveSize ctLen w)) e = c0 at hs
  have f1 : c0.maxPlain = waveSize ctLen w := by rw [← hc0]; rfl
  have f2 : c0.maxPayload = maxPacketSize ctLen := by rw [← hc0]; rfl
  have f3 : c0.maxPackets = w := by rw [← hc0]; rfl
  have f4 : c0.waveCount = divCeil plain.length (waveSize ctLen w) := by rw [← hc0, divCeil_eq_div_add hP]; rfl
  have hk : ∀ c1 : Cfg, c1.maxPlain = waveSize ctLen w → c1.maxPayload = maxPacketSize ctLen →
      ∀ i < divCeil plain.length c1.maxPlain, kOf c1 (ctOf c1 enc plain) i ≤ w := by
    intro c1 g1 g2 i hi
    rw [g1] at hi
    have := (enc_le hcf hP hi).2
    have h2 : ¬ w < kOf c1 (ctOf c1 enc plain) i := by
      unfold kOf ctOf; rw [g2, g1, lt_divCeil hM]; omega
    omega
  have hmem : ∀ c1 : Cfg, c1.maxPlain = waveSize ctLen w → c1.maxPayload = maxPacketSize ctLen → c1.maxPackets = w →
      c1.waveCount = divCeil plain.length (waveSize ctLen w) → ∀ p, p ∈ packets c1 w enc plain ↔
        Genuine c1 w (ctOf c1 enc plain) p := by
    intro c1 g1 g2 g3 g4 p
    exact mem_packets hw g3 (hk c1 g1 g2) (by rw [g4, g1])
  cases fixed with
  | true =>
    obtain ⟨hz, hlen⟩ := hfix rfl
    rw [if_pos rfl] at hs
    have e1 : c0 = c := congrArg Prod.fst (Option.some.inj hs)
    have e2 : packets c0 w enc plain = ps := congrArg Prod.snd (Option.some.inj hs)
    subst e1; subst e2
    refine ⟨rfl, hmem _ f1 f2 f3 f4, ?_⟩
    rw [← hc0]
    congr 1
    rw [if_neg hz]
    unfold ctOf
    have hd := divCeil_eq_div_add (n := plain.length) hP
    rw [if_neg hz] at hd
    have hmp : (newRefresh plain.length (maxPacketSize ctLen) (plain.length / waveSize ctLen w)
      (if plain.length % waveSize ctLen w = 0 then 0 else 1) (waveSize ctLen w)
      (if plain.length % waveSize ctLen w = 0 then waveSize ctLen w else plain.length % waveSize ctLen w) w
      (8 + ctLen (plain.length % waveSize ctLen w)) e).maxPlain = waveSize ctLen w := rfl
    rw [hmp, hd, Nat.add_sub_cancel]
    have hlast : (chunk (waveSize ctLen w) plain (plain.length / waveSize ctLen w)).length = plain.length % waveSize ctLen w := by
      have h1 := Nat.div_add_mod plain.length (waveSize ctLen w)
      have h2 := Nat.mod_lt plain.length hP
      rw [length_chunk, Nat.mul_comm (plain.length / waveSize ctLen w)]
      omega
    have h2 := Nat.mod_lt plain.length hP
    rw [hlen _ _ (by rw [hlast]; omega) (by rw [hlast]; exact h2), hlast]
  | false =>
    rw [if_neg (by simp)] at hs
    have hct := ctLast_eq (c := c0) (enc := enc) (plain := plain) hw (by omega) f3 (hk c0 f1 f2) (by rw [f4, f1]) (by omega)
    rw [hct] at hs
    have e1 := congrArg Prod.fst (Option.some.inj hs)
    have e2 : packets c0 w enc plain = ps := congrArg Prod.snd (Option.some.inj hs)
    dsimp only at e1
    have g1 : c.maxPlain = waveSize ctLen w := by rw [← e1, ← f1]; rfl
    have g2 : c.maxPayload = maxPacketSize ctLen := by rw [← e1, ← f2]; rfl
    have g3 : c.maxPackets = w := by rw [← e1]; exact f3
    have g4 : c.waveCount = divCeil plain.length (waveSize ctLen w) := by
      rw [← e1, divCeil_eq_div_add hP, ← hc0]; rfl
    rw [packets_congr (c' := c) (by rw [f1, g1]) (by rw [f2, g2]) (by rw [f3, g3])] at e2
    refine ⟨e2.symm, fun p => by rw [← e2]; exact hmem c g1 g2 g3 g4 p, ?_⟩
    have hctc : ctOf c enc plain = ctOf c0 enc plain := by unfold ctOf; rw [g1, f1]
    rw [hctc, ← f4, ← e1, ← hc0]
    rfl

theorem send_fits {ctLen : Nat → Nat} {w : Nat} {enc : Nat → Bytes → Bytes} {dec : Bytes → Option Bytes} {plain : Bytes} {e : Bool}
    {c : Cfg} (hw : 0 < w) (hn : 0 < plain.length)
    (hcf : CipherFits w (maxPacketSize ctLen) (waveSize ctLen w) enc dec)
    (hmul : plain.length % waveSize ctLen w = 0 →
      ∀ i pt, pt.length = waveSize ctLen w → (enc i pt).length % maxPacketSize ctLen = 0)
    (hc : c = newRefresh plain.length (maxPacketSize ctLen) (plain.length / waveSize ctLen w)
      (if plain.length % waveSize ctLen w = 0 then 0 else 1) (waveSize ctLen w)
      (if plain.length % waveSize ctLen w = 0 then waveSize ctLen w else plain.length % waveSize ctLen w) w
      (ctOf c enc plain (divCeil plain.length (waveSize ctLen w) - 1)).length e) :
    Fits c w dec (ctOf c enc plain) plain := by
  have hM : 0 < maxPacketSize ctLen := by have := maxPacketSize_pos ctLen; omega
  have hP := waveSize_pos (ctLen := ctLen) hw
  have hN : 0 < divCeil plain.length (waveSize ctLen w) := by rw [lt_divCeil hP]; simpa using hn
  have g1 : c.maxPlain = waveSize ctLen w := by rw [hc]; rfl
  have hct : ∀ i, ctOf c enc plain i = enc i (chunk (waveSize ctLen w) plain i) := by intro i; rw [ctOf, g1]
  refine fits_refresh hc hw hM hP hn ?_ ?_ ?_ ?_
  · intro i hi; rw [hct]; exact hcf.full i _ (length_chunk_full hP hi)
  · rw [hct]; exact enc_le hcf hP (by omega)
  · intro hz
    rw [hct]
    refine hmul hz _ _ ?_
    have hd := divCeil_eq_div_add (n := plain.length) hP
    rw [if_pos hz] at hd
    rw [length_chunk, hd, Nat.add_zero]
    have h1 := Nat.div_add_mod plain.length (waveSize ctLen w)
    rw [hz, Nat.add_zero, Nat.mul_comm] at h1
    obtain ⟨q, hq⟩ : ∃ q, plain.length / waveSize ctLen w = q + 1 := ⟨plain.length / waveSize ctLen w - 1, by omega⟩
    rw [hq] at h1 ⊢
    rw [Nat.add_mul] at h1
    rw [Nat.add_sub_cancel]
    omega
  · intro i _; rw [hct]; exact hcf.dec i _

/-- What arrives, if exactly the packets `ps` of a group were put on the wire. -/
theorem filterMap_wire {w : Nat} {m : List (Nat × Nat)} (hw : 0 < w) (hw2 : w ≤ 256) (h : IsMapping w m) {ps : List Packet}
    (hps : ∀ p ∈ ps, p.wave = p.seq / w ∧ p.wave < 2 ^ 32) {xs : List Wire}
    (hxs : ∀ x, x ∈ xs ↔ x ∈ ps.filterMap (toWire m)) (p : Packet) : p ∈ xs.filterMap (fromWire m) ↔ p ∈ ps := by
  have hself : ∀ q ∈ ps, ∃ x, toWire m q = some x ∧ fromWire m x = some q := by
    intro q hq
    obtain ⟨h1, h2⟩ := hps q hq
    exact wire_self hw hw2 h h1 (by rw [← h1]; exact h2)
  rw [List.mem_filterMap]
  constructor
  · rintro ⟨x, hx, hp⟩
    rw [hxs, List.mem_filterMap] at hx
    obtain ⟨q, hq, hqx⟩ := hx
    obtain ⟨x', h1, h2⟩ := hself q hq
    rw [h1] at hqx
    cases hqx
    rw [h2] at hp
    cases hp
    exact hq
  · intro hp
    obtain ⟨x, h1, h2⟩ := hself p hp
    exact ⟨x, by rw [hxs, List.mem_filterMap]; exact ⟨p, hp, h1⟩, h2⟩

theorem genuine_wave {c : Cfg} {w : Nat} {dec : Bytes → Option Bytes} {ct : Nat → Bytes} {plain : Bytes}
    (h : Fits c w dec ct plain) {p : Packet} (hp : Genuine c w ct p) : p.wave = p.seq / w ∧ p.wave < c.waveCount := by
  obtain ⟨i, j, hi, hj, e⟩ := hp
  have hk := kOf_le h hi
  subst e
  refine ⟨?_, hi⟩
  show i = (i * w + j) / w
  rw [Nat.mul_comm, Nat.mul_add_div h.wpos, Nat.div_eq_of_lt (by omega), Nat.add_zero]

theorem divCeil_le_self {n m : Nat} (hm : 0 < m) : divCeil n m ≤ n := by
  have : ¬ n < divCeil n m := by
    rw [lt_divCeil hm]
    have : n ≤ n * m := Nat.le_mul_of_pos_right _ hm
    omega
  omega

end Verif.Splitter

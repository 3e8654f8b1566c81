import Verif.Splitter.Lemmas
/-
The packets cut by the sender, and when its description of the group fits them.
-/
namespace Verif.Splitter
open Verif

theorem zipIdx_map_range {α β : Type} (f : Nat → α) (g : α × Nat → β) (n : Nat) :
    (((List.range n).map f).zipIdx.map g) = (List.range n).map fun i => g (f i, i) := by
  apply List.ext_getElem?
  intro i
  simp only [List.getElem?_map, List.getElem?_zipIdx]
  by_cases h : i < n
  · simp [h]
  · simp [h]

/-- Ciphertext of wave `i`. -/
def ctOf (c : Cfg) (enc : Nat → Bytes → Bytes) (plain : Bytes) (i : Nat) : Bytes := enc i (chunk c.maxPlain plain i)

theorem packets_eq {c : Cfg} {w : Nat} {enc : Nat → Bytes → Bytes} {plain : Bytes} (hw : 0 < w) (hp : c.maxPackets = w)
    (hk : ∀ i < divCeil plain.length c.maxPlain, kOf c (ctOf c enc plain) i ≤ w) :
    packets c w enc plain = (List.range (divCeil plain.length c.maxPlain)).flatMap fun i =>
      (List.range (kOf c (ctOf c enc plain) i)).map fun j => packetOf c w (ctOf c enc plain) i j := by
  unfold packets
  rw [show chunks c.maxPlain plain = (List.range (divCeil plain.length c.maxPlain)).map (chunk c.maxPlain plain) from rfl,
    zipIdx_map_range, List.flatMap_def]
  congr 1
  apply List.map_congr_left
  intro i hi
  have hki := hk i (List.mem_range.1 hi)
  unfold wavePackets
  rw [show chunks c.maxPayload (enc i (chunk c.maxPlain plain i)) = (List.range (kOf c (ctOf c enc plain) i)).map
    (chunk c.maxPayload (ctOf c enc plain i)) from rfl, zipIdx_map_range]
  apply List.map_congr_left
  intro j hj
  have hj' := List.mem_range.1 hj
  unfold packetOf
  rw [hp, Nat.mul_comm i w, Nat.mul_add_div hw, Nat.div_eq_of_lt (by omega), Nat.add_zero]

theorem mem_packets {c : Cfg} {w : Nat} {enc : Nat → Bytes → Bytes} {plain : Bytes} (hw : 0 < w) (hp : c.maxPackets = w)
    (hk : ∀ i < divCeil plain.length c.maxPlain, kOf c (ctOf c enc plain) i ≤ w)
    (hc : c.waveCount = divCeil plain.length c.maxPlain) {p : Packet} :
    p ∈ packets c w enc plain ↔ Genuine c w (ctOf c enc plain) p := by
  rw [packets_eq hw hp hk]
  simp only [List.mem_flatMap, List.mem_range, List.mem_map, Genuine, hc]
  constructor
  · rintro ⟨i, hi, j, hj, e⟩; exact ⟨i, j, hi, hj, e.symm⟩
  · rintro ⟨i, j, hi, hj, e⟩; exact ⟨i, hi, j, hj, e.symm⟩

theorem sum_chunks (m : Nat) (l : Bytes) (k : Nat) :
    ((List.range k).map fun j => (chunk m l j).length).sum = min (k * m) l.length := by
  induction k with
  | zero => simp
  | succ k ih =>
    rw [List.range_succ, List.map_append, List.sum_append, ih, List.map_cons, List.map_nil, List.sum_singleton, length_chunk,
      Nat.add_mul]
    omega

theorem filter_flatMap_last {c : Cfg} {w : Nat} {ct : Nat → Bytes} (n : Nat) :
    (((List.range (n + 1)).flatMap fun i => (List.range (kOf c ct i)).map fun j => packetOf c w ct i j).filter
      fun p => decide (p.wave = n)) = (List.range (kOf c ct n)).map fun j => packetOf c w ct n j := by
  have h1 : ∀ m, m ≤ n → (((List.range m).flatMap fun i => (List.range (kOf c ct i)).map fun j => packetOf c w ct i j).filter
      fun p => decide (p.wave = n)) = [] := by
    intro m hm
    rw [List.filter_eq_nil_iff]
    intro p hp
    simp only [List.mem_flatMap, List.mem_range, List.mem_map] at hp
    obtain ⟨i, hi, j, _, e⟩ := hp
    rw [← e]
    have hne : i ≠ n := by omega
    simp [packetOf, hne]
  rw [List.range_succ, List.flatMap_append, List.filter_append, h1 n (Nat.le_refl _), List.nil_append]
  simp only [List.flatMap_cons, List.flatMap_nil, List.append_nil]
  rw [List.filter_eq_self]
  intro p hp
  simp only [List.mem_map] at hp
  obtain ⟨j, _, e⟩ := hp
  rw [← e]
  simp [packetOf]

/-- The recomputed length of the last wave is the true one. -/
theorem ctLast_eq {c : Cfg} {w : Nat} {enc : Nat → Bytes → Bytes} {plain : Bytes} (hw : 0 < w) (hm : 0 < c.maxPayload)
    (hp : c.maxPackets = w) (hk : ∀ i < divCeil plain.length c.maxPlain, kOf c (ctOf c enc plain) i ≤ w)
    (hc : c.waveCount = divCeil plain.length c.maxPlain) (hpos : 0 < c.waveCount) :
    (((packets c w enc plain).filter fun p => p.wave = c.waveCount - 1).map fun p => p.payload.length).sum =
      (ctOf c enc plain (c.waveCount - 1)).length := by
  obtain ⟨n, hn⟩ : ∃ n, c.waveCount = n + 1 := ⟨c.waveCount - 1, by omega⟩
  rw [packets_eq hw hp hk, ← hc, hn, Nat.add_sub_cancel, filter_flatMap_last, List.map_map]
  rw [show ((fun p : Packet => p.payload.length) ∘ fun j => packetOf c w (ctOf c enc plain) n j) =
    fun j => (chunk c.maxPayload (ctOf c enc plain n) j).length from rfl, sum_chunks]
  have : ¬ kOf c (ctOf c enc plain) n * c.maxPayload < (ctOf c enc plain n).length :=
    fun hh => absurd ((lt_divCeil hm).2 hh) (Nat.lt_irrefl _)
  omega

theorem divCeil_mod {L M : Nat} (hM : 0 < M) (hL : 0 < L) :
    (divCeil L M - 1) * M + (if L % M = 0 then M else L % M) = L := by
  have h1 : M * (L / M) + L % M = L := Nat.div_add_mod L M
  have hlt : L % M < M := Nat.mod_lt _ hM
  by_cases h : L % M = 0
  · rw [if_pos h]
    have hq : 0 < L / M := by
      rcases Nat.eq_zero_or_pos (L / M) with hz | hz
      · rw [hz, h] at h1; omega
      · exact hz
    have hd : divCeil L M = L / M := by
      have a : L / M - 1 < divCeil L M := by
        rw [lt_divCeil hM, Nat.sub_mul, Nat.mul_comm (L / M) M]; omega
      have b : ¬ L / M < divCeil L M := by rw [lt_divCeil hM, Nat.mul_comm]; omega
      omega
    rw [hd, Nat.sub_mul, Nat.mul_comm (L / M) M]
    have : M ≤ M * (L / M) := Nat.le_mul_of_pos_right _ hq
    omega
  · rw [if_neg h]
    have hd : divCeil L M = L / M + 1 := by
      have a : L / M < divCeil L M := by rw [lt_divCeil hM, Nat.mul_comm]; omega
      have b : ¬ L / M + 1 < divCeil L M := by rw [lt_divCeil hM, Nat.add_mul, Nat.mul_comm]; omega
      omega
    rw [hd, Nat.add_sub_cancel, Nat.mul_comm]
    omega

theorem divCeil_of_between {L M w : Nat} (hM : 0 < M) (hw : 0 < w) (h1 : (w - 1) * M < L) (h2 : L ≤ w * M) :
    divCeil L M = w := by
  have a : w - 1 < divCeil L M := (lt_divCeil hM).2 h1
  have b : ¬ w < divCeil L M := by rw [lt_divCeil hM]; omega
  omega

theorem divCeil_eq_div_add {n m : Nat} (hm : 0 < m) :
    divCeil n m = n / m + if n % m = 0 then 0 else 1 := by
  have h1 : m * (n / m) + n % m = n := Nat.div_add_mod n m
  have hlt : n % m < m := Nat.mod_lt _ hm
  by_cases h : n % m = 0
  · rw [if_pos h]
    have b : ¬ n / m < divCeil n m := by rw [lt_divCeil hm, Nat.mul_comm]; omega
    have a : ¬ divCeil n m < n / m := by
      intro hh
      have : ¬ divCeil n m * m < n := fun hx => absurd ((lt_divCeil hm).2 hx) (Nat.lt_irrefl _)
      have h2 : (divCeil n m + 1) * m ≤ n / m * m := Nat.mul_le_mul_right _ hh
      rw [Nat.add_mul, Nat.mul_comm (n / m)] at h2
      omega
    omega
  · rw [if_neg h]
    have a : n / m < divCeil n m := by rw [lt_divCeil hm, Nat.mul_comm]; omega
    have b : ¬ n / m + 1 < divCeil n m := by rw [lt_divCeil hm, Nat.add_mul, Nat.mul_comm]; omega
    omega

/-- The shape of `generate_scrambler_metadata`, without its special case for short inputs. -/
theorem metadata_eq {ctLen : Nat → Nat} {w n : Nat} {e : Bool} (hn : 0 < n) :
    metadata ctLen w n e = some (newRefresh n (maxPacketSize ctLen)
      (n / (maxPacketSize ctLen * w - (maxPacketSize ctLen - 480)))
      (if n % (maxPacketSize ctLen * w - (maxPacketSize ctLen - 480)) = 0 then 0 else 1)
      (maxPacketSize ctLen * w - (maxPacketSize ctLen - 480))
      (if n % (maxPacketSize ctLen * w - (maxPacketSize ctLen - 480)) = 0 then
        maxPacketSize ctLen * w - (maxPacketSize ctLen - 480) else n % (maxPacketSize ctLen * w - (maxPacketSize ctLen - 480)))
      w
      (if n % (maxPacketSize ctLen * w - (maxPacketSize ctLen - 480)) = 0 then 0 else
        8 + ctLen (n % (maxPacketSize ctLen * w - (maxPacketSize ctLen - 480)))) e) := by
  unfold metadata
  rw [if_neg (by omega)]
  dsimp only
  generalize maxPacketSize ctLen * w - (maxPacketSize ctLen - 480) = m
  by_cases h1 : n < m
  · rw [if_pos h1]
    have h0 : n ≠ 0 := by omega
    simp [Nat.mod_eq_of_lt h1, Nat.div_eq_of_lt h1, h0]
  · rw [if_neg h1]
    by_cases h2 : n % m = 0
    · simp [h2]
    · simp [h2]

end Verif.Splitter

import Verif.NatPred.Spec
namespace Verif.NatPred

theorem averageDelta_three (a b c : Nat) :
    averageDelta [a, b, c] = (max a (max b c) - min a (min b c)) / 2 := by
  have hp : ([a, b, c].mergeSort (· ≤ ·)).Perm [a, b, c] := List.mergeSort_perm _ _
  have hs : ([a, b, c].mergeSort (· ≤ ·)).Pairwise (fun x y => decide (x ≤ y) = true) :=
    List.pairwise_mergeSort (by simp; omega) (by simp; omega) _
  unfold averageDelta
  generalize [a, b, c].mergeSort (fun x1 x2 => decide (x1 ≤ x2)) = l at hp hs
  have hl := hp.length_eq
  match l, hl with
  | [x, y, z], _ =>
    have hm : ∀ w, w ∈ [x, y, z] ↔ w ∈ [a, b, c] := fun w => hp.mem_iff
    have ha := (hm a).2 (by simp)
    have hb := (hm b).2 (by simp)
    have hc := (hm c).2 (by simp)
    have hx := (hm x).1 (by simp)
    have hz := (hm z).1 (by simp)
    simp at hs ha hb hc hx hz
    simp only [windowSum, List.length_cons, List.length_nil]
    omega

theorem mem_rangeIncl {a b i : Int} : i ∈ rangeIncl a b ↔ a ≤ i ∧ i ≤ b := by
  unfold rangeIncl
  simp only [List.mem_map, List.mem_range]
  constructor
  · rintro ⟨k, hk, rfl⟩; omega
  · rintro ⟨h1, h2⟩
    exact ⟨(i - a).toNat, by omega, by omega⟩

theorem length_rangeIncl (a b : Int) : (rangeIncl a b).length = (b + 1 - a).toNat := by
  simp [rangeIncl]

theorem wrappingPortAdd_ge (p : UInt16) (d : Int) : 1024 ≤ (wrappingPortAdd p d).toNat := by
  unfold wrappingPortAdd
  have h0 : 0 ≤ ((p.toNat : Int) + d).emod 65536 := Int.emod_nonneg _ (by decide)
  have h1 : ((p.toNat : Int) + d).emod 65536 < 65536 := Int.emod_lt_of_pos _ (by decide)
  dsimp only
  split <;> simp only [UInt16.toNat_ofNat'] <;> omega

theorem wrappingPortAdd_eq {p e : UInt16} {d : Int} (h : (e.toNat : Int) = p.toNat + d)
    (hg : 1024 ≤ e.toNat) : wrappingPortAdd p d = e := by
  unfold wrappingPortAdd
  rw [← h]
  have he : e.toNat < 65536 := e.toNat_lt
  have h1 : ((e.toNat : Int)).emod 65536 = e.toNat := Int.emod_eq_of_lt (by omega) (by omega)
  dsimp only
  rw [h1, Int.toNat_natCast, if_neg (by omega)]
  simp

theorem wrappingAdd_v4 {n : BitVec 24} {h h' : UInt8} {i : Int}
    (hh : (h'.toNat : Int) = h.toNat + i) : (Ip.v4 n h).wrappingAdd i = .v4 n h' := by
  have hl : h'.toNat < 256 := h'.toNat_lt
  have h1 : ((h'.toNat : Int)).emod 256 = h'.toNat := Int.emod_eq_of_lt (by omega) (by omega)
  simp only [Ip.wrappingAdd]
  rw [← hh, h1, Int.toNat_natCast]; simp

theorem wrappingAdd_v6 {n : BitVec 120} {h h' : UInt8} {i : Int}
    (hh : (h'.toNat : Int) = h.toNat + i) : (Ip.v6 n h).wrappingAdd i = .v6 n h' := by
  have hl : h'.toNat < 256 := h'.toNat_lt
  have h1 : ((h'.toNat : Int)).emod 256 = h'.toNat := Int.emod_eq_of_lt (by omega) (by omega)
  simp only [Ip.wrappingAdd]
  rw [← hh, h1, Int.toNat_natCast]; simp

theorem triple_small {c : Bool} {d : Int} (h0 : 0 ≤ d) (h5 : d ≤ 5) :
    triple c d = .ok (3 * d) := by
  unfold triple; rw [if_pos (by omega)]

theorem mem_addrsOf {bands : List Band} {a : Addr} :
    a ∈ addrsOf bands ↔ ∃ b ∈ bands, b.ip = a.ip ∧ a.port ∈ b.ports := by
  unfold addrsOf Band.addrs
  simp only [List.mem_flatMap, List.mem_map, List.mem_reverse]
  constructor
  · rintro ⟨b, hb, p, hp, rfl⟩; exact ⟨b, hb, rfl, hp⟩
  · rintro ⟨b, hb, hi, hp⟩
    exact ⟨b, hb, a.port, hp, by rw [hi]⟩

theorem mem_infoBands {info : Option IpInfo} {ports : List UInt16} {bands : List Band} {b : Band}
    (h : b ∈ bands) : b ∈ infoBands info ports bands := by
  unfold infoBands
  cases info with
  | none => exact h
  | some i =>
    dsimp only
    split <;> split <;> simp [h]

theorem mem_finalBand {a : Addr} {bands : List Band} {b : Band} (h : b ∈ bands) :
    b ∈ finalBand a bands := by
  unfold finalBand; split <;> simp [h]

/-- What `predict` returns, from the ports and the addresses. -/
theorem predict_of {c : Bool} {n : NatType} {a : Addr} {ports : List UInt16} {ips : List Ip}
    (hp : anticipatedPorts c n.port a.port = .ok (some ports))
    (hi : baseIps c n.ip a.ip = .ok (some ips)) :
    n.predict c a =
      .ok (some (finalBand a (infoBands n.info ports (ips.map fun ip => ⟨ip, ports⟩)))) := by
  unfold NatType.predict
  rw [hp]; simp only [Res.bind]; rw [hi]

/-- Every address with every port is tried. -/
theorem tried_of {c : Bool} {n : NatType} {a : Addr} {ports : List UInt16} {ips : List Ip}
    (hp : anticipatedPorts c n.port a.port = .ok (some ports))
    (hi : baseIps c n.ip a.ip = .ok (some ips)) {e : Addr} (h1 : e.ip ∈ ips) (h2 : e.port ∈ ports) :
    ∃ bands, n.predict c a = .ok (some bands) ∧ Tried bands e := by
  refine ⟨_, predict_of hp hi, mem_addrsOf.2 ⟨⟨e.ip, ports⟩, ?_, rfl, h2⟩⟩
  exact mem_finalBand (mem_infoBands (List.mem_map.2 ⟨e.ip, h1, rfl⟩))

/-- The ports of a NAT that follows its rule. -/
theorem ports_of_rule {c : Bool} {r : PortRule} {p0 p1 p2 q : Pair} {n k0 k1 k2 j : Nat}
    (hk : Consecutive n k0 k1 k2) (hj : j < 3)
    (h0 : r.Maps k0 p0.internal.port p0.external.port)
    (h1 : r.Maps k1 p1.internal.port p1.external.port)
    (h2 : r.Maps k2 p2.internal.port p2.external.port)
    (hq : r.Maps (n + 3 + j) q.internal.port q.external.port)
    (hs : r.SmallStep) (ht : r.Telling p0 p1 p2) (hg : 1024 ≤ q.external.port.toNat) :
    ∃ ports, anticipatedPorts c (portTranslation p0 p1 p2) q.internal.port = .ok (some ports) ∧
      q.external.port ∈ ports := by
  cases r with
  | shift d =>
    simp only [PortRule.Maps] at h0 h1 h2 hq
    unfold portTranslation
    dsimp only
    by_cases hid : p0.internal.port.toNat = p0.external.port.toNat ∧
        p1.internal.port.toNat = p1.external.port.toNat ∧
        p2.internal.port.toNat = p2.external.port.toNat
    · rw [if_pos hid]
      refine ⟨[q.internal.port], rfl, ?_⟩
      have : q.external.port = q.internal.port := UInt16.toNat.inj (by omega)
      simp [this]
    · rw [if_neg hid, if_pos (by omega)]
      refine ⟨_, rfl, ?_⟩
      rw [wrappingPortAdd_eq (e := q.external.port) (by omega) hg]; simp
  | sequential b s =>
    simp only [PortRule.Maps, PortRule.Telling, PortRule.SmallStep] at h0 h1 h2 hq ht hs
    unfold portTranslation
    dsimp only
    rw [if_neg (by omega), if_neg ht, averageDelta_three]
    -- the highest one is mapping number `n + 2`
    obtain ⟨a0, a1, a2, b0, b1, b2, c0, c1, c2⟩ := hk
    have hmax : max p0.external.port.toNat (max p1.external.port.toNat p2.external.port.toNat) =
        b + s * (n + 2) := by
      have e0 : p0.external.port.toNat ≤ b + s * (n + 2) := by
        rw [h0]; exact Nat.add_le_add_left (Nat.mul_le_mul_left _ b0) _
      have e1 : p1.external.port.toNat ≤ b + s * (n + 2) := by
        rw [h1]; exact Nat.add_le_add_left (Nat.mul_le_mul_left _ b1) _
      have e2 : p2.external.port.toNat ≤ b + s * (n + 2) := by
        rw [h2]; exact Nat.add_le_add_left (Nat.mul_le_mul_left _ b2) _
      have : k0 = n + 2 ∨ k1 = n + 2 ∨ k2 = n + 2 := by omega
      rcases this with h | h | h <;> subst h <;> omega
    have hmin : min p0.external.port.toNat (min p1.external.port.toNat p2.external.port.toNat) =
        b + s * n := by
      have e0 : b + s * n ≤ p0.external.port.toNat := by
        rw [h0]; exact Nat.add_le_add_left (Nat.mul_le_mul_left _ a0) _
      have e1 : b + s * n ≤ p1.external.port.toNat := by
        rw [h1]; exact Nat.add_le_add_left (Nat.mul_le_mul_left _ a1) _
      have e2 : b + s * n ≤ p2.external.port.toNat := by
        rw [h2]; exact Nat.add_le_add_left (Nat.mul_le_mul_left _ a2) _
      have : k0 = n ∨ k1 = n ∨ k2 = n := by omega
      rcases this with h | h | h <;> subst h <;> omega
    rw [hmax, hmin]
    have havg : (b + s * (n + 2) - (b + s * n)) / 2 = s := by
      rw [Nat.mul_add]; omega
    rw [havg, if_pos (by simp only [maxOctetDelta]; omega)]
    simp only [anticipatedPorts, triple_small (c := c) (d := (s : Int)) (by omega) (by omega),
      Res.bind]
    refine ⟨_, rfl, List.mem_map.2 ⟨s * (j + 1), mem_rangeIncl.2 ?_, ?_⟩⟩
    · constructor
      · exact_mod_cast Nat.le_mul_of_pos_right s (Nat.succ_pos j)
      · have : s * (j + 1) ≤ 3 * s := by rw [Nat.mul_comm]; exact Nat.mul_le_mul_right s (by omega)
        exact_mod_cast this
    · apply wrappingPortAdd_eq _ hg
      have hlast : (if p0.external.port.toNat = b + s * (n + 2) then p0.external.port
          else if p1.external.port.toNat = b + s * (n + 2) then p1.external.port
          else p2.external.port).toNat = b + s * (n + 2) := by
        split
        · assumption
        · split
          · assumption
          · omega
      rw [hlast, hq]
      have hN : b + s * (n + 3 + j) = b + s * (n + 2) + s * (j + 1) := by
        rw [Nat.add_assoc b, ← Nat.mul_add, show n + 3 + j = n + 2 + (j + 1) by omega]
      exact_mod_cast hN

/-- The addresses of a NAT that takes the addresses of a v4 network in turn. -/
theorem ips_of_pool4 {c : Bool} {net : BitVec 24} {b s : Nat} {p0 p1 p2 : Pair} {q : Pair}
    {n k0 k1 k2 j : Nat} (hk : Consecutive n k0 k1 k2) (hj : j < 3)
    (h0 : (IpRule.pool4 net b s).Maps k0 p0.internal.ip p0.external.ip)
    (h1 : (IpRule.pool4 net b s).Maps k1 p1.internal.ip p1.external.ip)
    (h2 : (IpRule.pool4 net b s).Maps k2 p2.internal.ip p2.external.ip)
    (hq : (IpRule.pool4 net b s).Maps (n + 3 + j) q.internal.ip q.external.ip)
    (hs : 1 ≤ s ∧ s ≤ 5) (hi : p0.internal.ip = p1.internal.ip) :
    ∃ ips, baseIps c (ipTranslation p0 p1 p2) q.internal.ip = .ok (some ips) ∧
      q.external.ip ∈ ips := by
  obtain ⟨x0, e0, h0⟩ := h0
  obtain ⟨x1, e1, h1⟩ := h1
  obtain ⟨x2, e2, h2⟩ := h2
  obtain ⟨xq, eq, hq⟩ := hq
  obtain ⟨a0, a1, a2, b0, b1, b2, c0, c1, c2⟩ := hk
  have hne : x0 ≠ x1 := by
    intro h
    rw [h, h1] at h0
    have h3 : s * k1 = s * k0 := by omega
    exact c0 (Nat.eq_of_mul_eq_mul_left (by omega) h3).symm
  unfold ipTranslation
  dsimp only
  rw [e0, e1, e2, eq]
  rw [if_neg (by rintro ⟨u, w, -⟩; rw [hi, w] at u; injection u with _ u; exact hne u.symm),
    if_neg (by rintro ⟨u, -⟩; injection u with _ u; exact hne u)]
  have l (x : UInt8) : (Ip.v4 net x).lastOctet = x := rfl
  rw [l, l, l, averageDelta_three]
  have hmax : max x0.toNat (max x1.toNat x2.toNat) = b + s * (n + 2) := by
    have e0 : x0.toNat ≤ b + s * (n + 2) := by
      rw [h0]; exact Nat.add_le_add_left (Nat.mul_le_mul_left _ b0) _
    have e1 : x1.toNat ≤ b + s * (n + 2) := by
      rw [h1]; exact Nat.add_le_add_left (Nat.mul_le_mul_left _ b1) _
    have e2 : x2.toNat ≤ b + s * (n + 2) := by
      rw [h2]; exact Nat.add_le_add_left (Nat.mul_le_mul_left _ b2) _
    have : k0 = n + 2 ∨ k1 = n + 2 ∨ k2 = n + 2 := by omega
    rcases this with h | h | h <;> subst h <;> omega
  have hmin : min x0.toNat (min x1.toNat x2.toNat) = b + s * n := by
    have e0 : b + s * n ≤ x0.toNat := by
      rw [h0]; exact Nat.add_le_add_left (Nat.mul_le_mul_left _ a0) _
    have e1 : b + s * n ≤ x1.toNat := by
      rw [h1]; exact Nat.add_le_add_left (Nat.mul_le_mul_left _ a1) _
    have e2 : b + s * n ≤ x2.toNat := by
      rw [h2]; exact Nat.add_le_add_left (Nat.mul_le_mul_left _ a2) _
    have : k0 = n ∨ k1 = n ∨ k2 = n := by omega
    rcases this with h | h | h <;> subst h <;> omega
  rw [hmax, hmin]
  have havg : (b + s * (n + 2) - (b + s * n)) / 2 = s := by
    rw [Nat.mul_add]; omega
  rw [havg, if_pos (by simp only [maxOctetDelta]; omega)]
  simp only [baseIps, triple_small (c := c) (d := (s : Int)) (by omega) (by omega), Res.bind]
  refine ⟨_, rfl, List.mem_map.2 ⟨s * (j + 1), mem_rangeIncl.2 ?_, ?_⟩⟩
  · constructor
    · exact_mod_cast Nat.le_mul_of_pos_right s (Nat.succ_pos j)
    · have : s * (j + 1) ≤ 3 * s := by rw [Nat.mul_comm]; exact Nat.mul_le_mul_right s (by omega)
      exact_mod_cast this
  · have hN : b + s * (n + 3 + j) = b + s * (n + 2) + s * (j + 1) := by
      rw [Nat.add_assoc b, ← Nat.mul_add, show n + 3 + j = n + 2 + (j + 1) by omega]
    split
    · next h => exact wrappingAdd_v4 (by rw [hq, h]; exact_mod_cast hN)
    · split
      · next h => exact wrappingAdd_v4 (by rw [hq, h]; exact_mod_cast hN)
      · have h : x2.toNat = b + s * (n + 2) := by omega
        exact wrappingAdd_v4 (by rw [hq, h]; exact_mod_cast hN)

/-- The addresses of a NAT that takes the addresses of a v6 network in turn. -/
theorem ips_of_pool6 {c : Bool} {net : BitVec 120} {b s : Nat} {p0 p1 p2 : Pair} {q : Pair}
    {n k0 k1 k2 j : Nat} (hk : Consecutive n k0 k1 k2) (hj : j < 3)
    (h0 : (IpRule.pool6 net b s).Maps k0 p0.internal.ip p0.external.ip)
    (h1 : (IpRule.pool6 net b s).Maps k1 p1.internal.ip p1.external.ip)
    (h2 : (IpRule.pool6 net b s).Maps k2 p2.internal.ip p2.external.ip)
    (hq : (IpRule.pool6 net b s).Maps (n + 3 + j) q.internal.ip q.external.ip)
    (hs : 1 ≤ s ∧ s ≤ 5) (hi : p0.internal.ip = p1.internal.ip) :
    ∃ ips, baseIps c (ipTranslation p0 p1 p2) q.internal.ip = .ok (some ips) ∧
      q.external.ip ∈ ips := by
  obtain ⟨x0, e0, h0⟩ := h0
  obtain ⟨x1, e1, h1⟩ := h1
  obtain ⟨x2, e2, h2⟩ := h2
  obtain ⟨xq, eq, hq⟩ := hq
  obtain ⟨a0, a1, a2, b0, b1, b2, c0, c1, c2⟩ := hk
  have hne : x0 ≠ x1 := by
    intro h
    rw [h, h1] at h0
    have h3 : s * k1 = s * k0 := by omega
    exact c0 (Nat.eq_of_mul_eq_mul_left (by omega) h3).symm
  unfold ipTranslation
  dsimp only
  rw [e0, e1, e2, eq]
  rw [if_neg (by rintro ⟨u, w, -⟩; rw [hi, w] at u; injection u with _ u; exact hne u.symm),
    if_neg (by rintro ⟨u, -⟩; injection u with _ u; exact hne u)]
  have l (x : UInt8) : (Ip.v6 net x).lastOctet = x := rfl
  rw [l, l, l, averageDelta_three]
  have hmax : max x0.toNat (max x1.toNat x2.toNat) = b + s * (n + 2) := by
    have e0 : x0.toNat ≤ b + s * (n + 2) := by
      rw [h0]; exact Nat.add_le_add_left (Nat.mul_le_mul_left _ b0) _
    have e1 : x1.toNat ≤ b + s * (n + 2) := by
      rw [h1]; exact Nat.add_le_add_left (Nat.mul_le_mul_left _ b1) _
    have e2 : x2.toNat ≤ b + s * (n + 2) := by
      rw [h2]; exact Nat.add_le_add_left (Nat.mul_le_mul_left _ b2) _
    have : k0 = n + 2 ∨ k1 = n + 2 ∨ k2 = n + 2 := by omega
    rcases this with h | h | h <;> subst h <;> omega
  have hmin : min x0.toNat (min x1.toNat x2.toNat) = b + s * n := by
    have e0 : b + s * n ≤ x0.toNat := by
      rw [h0]; exact Nat.add_le_add_left (Nat.mul_le_mul_left _ a0) _
    have e1 : b + s * n ≤ x1.toNat := by
      rw [h1]; exact Nat.add_le_add_left (Nat.mul_le_mul_left _ a1) _
    have e2 : b + s * n ≤ x2.toNat := by
      rw [h2]; exact Nat.add_le_add_left (Nat.mul_le_mul_left _ a2) _
    have : k0 = n ∨ k1 = n ∨ k2 = n := by omega
    rcases this with h | h | h <;> subst h <;> omega
  rw [hmax, hmin]
  have havg : (b + s * (n + 2) - (b + s * n)) / 2 = s := by
    rw [Nat.mul_add]; omega
  rw [havg, if_pos (by simp only [maxOctetDelta]; omega)]
  simp only [baseIps, triple_small (c := c) (d := (s : Int)) (by omega) (by omega), Res.bind]
  refine ⟨_, rfl, List.mem_map.2 ⟨s * (j + 1), mem_rangeIncl.2 ?_, ?_⟩⟩
  · constructor
    · exact_mod_cast Nat.le_mul_of_pos_right s (Nat.succ_pos j)
    · have : s * (j + 1) ≤ 3 * s := by rw [Nat.mul_comm]; exact Nat.mul_le_mul_right s (by omega)
      exact_mod_cast this
  · have hN : b + s * (n + 3 + j) = b + s * (n + 2) + s * (j + 1) := by
      rw [Nat.add_assoc b, ← Nat.mul_add, show n + 3 + j = n + 2 + (j + 1) by omega]
    split
    · next h => exact wrappingAdd_v6 (by rw [hq, h]; exact_mod_cast hN)
    · split
      · next h => exact wrappingAdd_v6 (by rw [hq, h]; exact_mod_cast hN)
      · have h : x2.toNat = b + s * (n + 2) := by omega
        exact wrappingAdd_v6 (by rw [hq, h]; exact_mod_cast hN)

/-- The addresses of a NAT that follows its rule. -/
theorem ips_of_rule {c : Bool} {r : IpRule} {p0 p1 p2 q : Pair} {n k0 k1 k2 j : Nat}
    (hk : Consecutive n k0 k1 k2) (hj : j < 3)
    (h0 : r.Maps k0 p0.internal.ip p0.external.ip)
    (h1 : r.Maps k1 p1.internal.ip p1.external.ip)
    (h2 : r.Maps k2 p2.internal.ip p2.external.ip)
    (hq : r.Maps (n + 3 + j) q.internal.ip q.external.ip)
    (hs : r.SmallStep)
    (hi : p0.internal.ip = p1.internal.ip ∧ p1.internal.ip = p2.internal.ip ∧
      p2.internal.ip = q.internal.ip) :
    ∃ ips, baseIps c (ipTranslation p0 p1 p2) q.internal.ip = .ok (some ips) ∧
      q.external.ip ∈ ips := by
  cases r with
  | same =>
    simp only [IpRule.Maps] at h0 h1 h2 hq
    unfold ipTranslation
    dsimp only
    rw [if_pos ⟨h0.symm, h1.symm, h2.symm⟩]
    exact ⟨_, rfl, by simp [hq]⟩
  | one x =>
    simp only [IpRule.Maps] at h0 h1 h2 hq
    unfold ipTranslation
    dsimp only
    rw [h0, h1, h2]
    split
    · next h => exact ⟨_, rfl, by rw [hq, ← hi.2.2, h.2.2]; simp⟩
    · rw [if_pos ⟨rfl, rfl⟩]
      exact ⟨_, rfl, by simp [hq]⟩
  | pool4 net b s => exact ips_of_pool4 hk hj h0 h1 h2 hq hs hi.1
  | pool6 net b s => exact ips_of_pool6 hk hj h0 h1 h2 hq hs hi.1

end Verif.NatPred

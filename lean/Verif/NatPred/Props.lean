import Verif.NatPred.Lemmas
namespace Verif.NatPred

/-! ## C121: the next mapping of the NAT is among the predicted ones -/

/-- A NAT that shifts ports by a constant or counts up, and that has one address or takes those of
a network in turn: from three mappings, in any order, the one that follows (and the two after it)
is among the candidates. -/
theorem C121_next_mapping_is_tried_partial {c v6 : Bool} {info : Option IpInfo} {r : Rules}
    {p0 p1 p2 q : Pair} {n k0 k1 k2 j : Nat} (hk : Consecutive n k0 k1 k2) (hj : j < 3)
    (h0 : r.Maps k0 p0) (h1 : r.Maps k1 p1) (h2 : r.Maps k2 p2) (hq : r.Maps (n + 3 + j) q)
    (hsp : r.port.SmallStep) (hsi : r.ip.SmallStep) (ht : r.port.Telling p0 p1 p2)
    (hg : 1024 ≤ q.external.port.toNat)
    (hi : p0.internal.ip = p1.internal.ip ∧ p1.internal.ip = p2.internal.ip ∧
      p2.internal.ip = q.internal.ip) :
    ∃ bands, ({ NatType.new v6 p0 p1 p2 with info := info }).predict c q.internal =
      .ok (some bands) ∧ Tried bands q.external := by
  obtain ⟨ports, hp, hpm⟩ := ports_of_rule (c := c) hk hj h0.2 h1.2 h2.2 hq.2 hsp ht hg
  obtain ⟨ips, hi, him⟩ := ips_of_rule (c := c) hk hj h0.1 h1.1 h2.1 hq.1 hsi hi
  exact tried_of (n := { NatType.new v6 p0 p1 p2 with info := info }) hp hi him hpm

/-- `0.0.0.0`, what the code takes as the internal address. -/
def anyIp : Ip := .v4 0 0
/-- `203.0.113.h`. -/
def pub (h : UInt8) : Ip := .v4 0xcb0071#24 h

/-- A NAT that counts the ports in steps of two, and the addresses in steps of one. -/
def countingNat : Rules := ⟨.pool4 0xcb0071#24 9 1, .sequential 50000 2⟩

example : ∃ p0 p1 p2 q : Pair, Consecutive 0 2 0 1 ∧
    countingNat.Maps 2 p0 ∧ countingNat.Maps 0 p1 ∧ countingNat.Maps 1 p2 ∧
    countingNat.Maps (0 + 3 + 1) q ∧ countingNat.port.SmallStep ∧ countingNat.ip.SmallStep ∧
    countingNat.port.Telling p0 p1 p2 ∧ 1024 ≤ q.external.port.toNat :=
  ⟨⟨⟨anyIp, 40000⟩, ⟨pub 11, 50004⟩⟩, ⟨⟨anyIp, 33333⟩, ⟨pub 9, 50000⟩⟩,
   ⟨⟨anyIp, 41234⟩, ⟨pub 10, 50002⟩⟩, ⟨⟨anyIp, 60000⟩, ⟨pub 13, 50008⟩⟩, by
    unfold Consecutive; decide, ⟨⟨11, rfl, rfl⟩, rfl⟩, ⟨⟨9, rfl, rfl⟩, rfl⟩, ⟨⟨10, rfl, rfl⟩, rfl⟩,
    ⟨⟨13, rfl, rfl⟩, rfl⟩, by simp [countingNat, PortRule.SmallStep],
    by simp [countingNat, IpRule.SmallStep], by simp [countingNat, PortRule.Telling],
    by decide⟩

/-- The order in which the servers answered does not matter for the ports. -/
theorem C121_ports_in_any_order (p0 p1 p2 : Pair) :
    portTranslation p0 p1 p2 = portTranslation p1 p0 p2 ∧
    portTranslation p0 p1 p2 = portTranslation p0 p2 p1 := by
  unfold portTranslation
  simp only [averageDelta_three]
  constructor
  · have hm : max p1.external.port.toNat (max p0.external.port.toNat p2.external.port.toNat) =
        max p0.external.port.toNat (max p1.external.port.toNat p2.external.port.toNat) := by omega
    have hn : min p1.external.port.toNat (min p0.external.port.toNat p2.external.port.toNat) =
        min p0.external.port.toNat (min p1.external.port.toNat p2.external.port.toNat) := by omega
    rw [hm, hn]
    have hl : (if p0.external.port.toNat =
          max p0.external.port.toNat (max p1.external.port.toNat p2.external.port.toNat)
        then p0.external.port
        else if p1.external.port.toNat =
          max p0.external.port.toNat (max p1.external.port.toNat p2.external.port.toNat)
        then p1.external.port else p2.external.port) =
        (if p1.external.port.toNat =
          max p0.external.port.toNat (max p1.external.port.toNat p2.external.port.toNat)
        then p1.external.port
        else if p0.external.port.toNat =
          max p0.external.port.toNat (max p1.external.port.toNat p2.external.port.toNat)
        then p0.external.port else p2.external.port) := by
      apply UInt16.toNat.inj
      repeat' split
      all_goals omega
    rw [hl]
    repeat' split
    all_goals first | rfl | omega | skip
    all_goals congr 1; omega
  · have hm : max p0.external.port.toNat (max p2.external.port.toNat p1.external.port.toNat) =
        max p0.external.port.toNat (max p1.external.port.toNat p2.external.port.toNat) := by omega
    have hn : min p0.external.port.toNat (min p2.external.port.toNat p1.external.port.toNat) =
        min p0.external.port.toNat (min p1.external.port.toNat p2.external.port.toNat) := by omega
    rw [hm, hn]
    have hl : (if p0.external.port.toNat =
          max p0.external.port.toNat (max p1.external.port.toNat p2.external.port.toNat)
        then p0.external.port
        else if p1.external.port.toNat =
          max p0.external.port.toNat (max p1.external.port.toNat p2.external.port.toNat)
        then p1.external.port else p2.external.port) =
        (if p0.external.port.toNat =
          max p0.external.port.toNat (max p1.external.port.toNat p2.external.port.toNat)
        then p0.external.port
        else if p2.external.port.toNat =
          max p0.external.port.toNat (max p1.external.port.toNat p2.external.port.toNat)
        then p2.external.port else p1.external.port) := by
      apply UInt16.toNat.inj
      repeat' split
      all_goals omega
    rw [hl]
    repeat' split
    all_goals first | rfl | omega | skip

/-- Ports that the delta kinds predict are never privileged ones. -/
theorem C121_no_privileged_port {c : Bool} {n : NatType} {a : Addr} {ports : List UInt16}
    (hid : n.port ≠ .identity) (h : anticipatedPorts c n.port a.port = .ok (some ports)) :
    ∀ p ∈ ports, 1024 ≤ p.toNat := by
  cases hp : n.port with
  | identity => exact absurd hp hid
  | deltaConst d =>
    rw [hp] at h
    simp only [anticipatedPorts, Res.ok.injEq, Option.some.injEq] at h
    subst h
    intro p hp; simp only [List.mem_singleton] at hp; subst hp
    exact wrappingPortAdd_ge _ _
  | deltaIndep d l =>
    rw [hp] at h
    simp only [anticipatedPorts] at h
    cases ht : triple c d with
    | ok hi =>
      rw [ht] at h
      simp only [Res.bind, Res.ok.injEq, Option.some.injEq] at h
      subst h
      intro p hp
      obtain ⟨i, -, rfl⟩ := List.mem_map.1 hp
      exact wrappingPortAdd_ge _ _
    | err => rw [ht] at h; cases h
    | panic => rw [ht] at h; cases h
  | unpredictable => rw [hp] at h; cases h

/-- The classification of the ports, with the mean written out. -/
theorem portTranslation_eq (p0 p1 p2 : Pair) : portTranslation p0 p1 p2 =
    if p0.internal.port.toNat = p0.external.port.toNat ∧
        p1.internal.port.toNat = p1.external.port.toNat ∧
        p2.internal.port.toNat = p2.external.port.toNat then .identity
    else if (p0.external.port.toNat : Int) - p0.internal.port.toNat =
          p1.external.port.toNat - p1.internal.port.toNat ∧
        (p1.external.port.toNat : Int) - p1.internal.port.toNat =
          p2.external.port.toNat - p2.internal.port.toNat then
      .deltaConst (p0.external.port.toNat - p0.internal.port.toNat)
    else
      let hi := max p0.external.port.toNat (max p1.external.port.toNat p2.external.port.toNat)
      let lo := min p0.external.port.toNat (min p1.external.port.toNat p2.external.port.toNat)
      if (hi - lo) / 2 ≤ 5 then
        .deltaIndep ((hi - lo) / 2 : Nat)
          (if p0.external.port.toNat = hi then p0.external.port
            else if p1.external.port.toNat = hi then p1.external.port else p2.external.port)
      else .unpredictable := by
  unfold portTranslation
  simp only [averageDelta_three, maxOctetDelta]

/-- What is needed for a prediction that misses `e`. -/
theorem missed_of {c : Bool} {n : NatType} {a e : Addr} {bands : List Band}
    (h : n.predict c a = .ok (some bands)) (hm : e ∉ addrsOf bands) :
    ∃ bands, n.predict c a = .ok (some bands) ∧ ¬ Tried bands e := ⟨bands, h, hm⟩

/-- The prediction from three mappings, with one external address, misses the mapping `q`. -/
def Misses (p0 p1 p2 q : Pair) : Prop :=
  ∀ c v6, ∃ bands, (NatType.new v6 p0 p1 p2).predict c q.internal = .ok (some bands) ∧
    ¬ Tried bands q.external

/-- A mapping of the NAT with the external address `203.0.113.9`. -/
def mp (i e : UInt16) : Pair := ⟨⟨anyIp, i⟩, ⟨pub 9, e⟩⟩

theorem ipTranslation_mp (i0 e0 i1 e1 i2 e2 : UInt16) :
    ipTranslation (mp i0 e0) (mp i1 e1) (mp i2 e2) = .constant (pub 9) := by
  have h : anyIp ≠ pub 9 := by decide
  simp [ipTranslation, mp, h]

theorem misses_of {i0 e0 i1 e1 i2 e2 : UInt16} {q : Pair} {t : PortTrans} {ports : List UInt16}
    (ht : portTranslation (mp i0 e0) (mp i1 e1) (mp i2 e2) = t)
    (hp : ∀ c, anticipatedPorts c t q.internal.port = .ok (some ports))
    (hm : q.external ∉ addrsOf (finalBand q.internal [⟨pub 9, ports⟩])) :
    Misses (mp i0 e0) (mp i1 e1) (mp i2 e2) q := by
  intro c v6
  refine ⟨_, ?_, hm⟩
  have := predict_of (n := NatType.new v6 (mp i0 e0) (mp i1 e1) (mp i2 e2)) (c := c)
    (a := q.internal) (ports := ports) (ips := [pub 9])
    (by simp only [NatType.new]; rw [ht]; exact hp c)
    (by simp only [NatType.new, ipTranslation_mp]; rfl)
  rw [this]; rfl

/-- A NAT that shifts the ports to below 1024: the observed mappings are not even predicted back.
The mapping `q` is the first one again. -/
theorem C121_counterexample_low_port :
    ∃ p0 p1 p2 : Pair, (∀ k, (PortRule.shift (-50000)).Maps k p0.internal.port p0.external.port ∧
      (PortRule.shift (-50000)).Maps k p1.internal.port p1.external.port ∧
      (PortRule.shift (-50000)).Maps k p2.internal.port p2.external.port) ∧
      Misses p0 p1 p2 p0 := by
  refine ⟨mp 51000 1000, mp 51001 1001, mp 51002 1002, ?_, ?_⟩
  · intro k; simp only [PortRule.Maps]; decide
  · refine misses_of (t := .deltaConst (-50000)) (ports := [2024]) ?_ (fun c => ?_) ?_
    · rw [portTranslation_eq]; decide
    · simp only [anticipatedPorts, mp]; decide +kernel
    · decide

/-- A NAT that counts, asked from three sockets whose ports happen to count as well, is taken for
one that shifts by a constant: the next mapping is missed. -/
theorem C121_counterexample_coincidence :
    ∃ p0 p1 p2 q : Pair, (PortRule.sequential 50000 1).Maps 0 p0.internal.port p0.external.port ∧
      (PortRule.sequential 50000 1).Maps 1 p1.internal.port p1.external.port ∧
      (PortRule.sequential 50000 1).Maps 2 p2.internal.port p2.external.port ∧
      (PortRule.sequential 50000 1).Maps 3 q.internal.port q.external.port ∧
      Misses p0 p1 p2 q := by
  refine ⟨mp 40000 50000, mp 40001 50001, mp 40002 50002, mp 45555 50003, rfl, rfl, rfl, rfl, ?_⟩
  refine misses_of (t := .deltaConst 10000) (ports := [55555]) ?_ (fun c => ?_) ?_
  · rw [portTranslation_eq]; decide
  · simp only [anticipatedPorts, mp]; decide +kernel
  · decide

/-- A NAT that counts by one while others use it as well: the ports 50000, 50003 and 50010 have a
mean distance of five, the prediction begins five ports above the last one, and the next port is
missed. -/
theorem C121_counterexample_busy_nat :
    ∃ p0 p1 p2 q : Pair, (PortRule.sequential 50000 1).Maps 0 p0.internal.port p0.external.port ∧
      (PortRule.sequential 50000 1).Maps 3 p1.internal.port p1.external.port ∧
      (PortRule.sequential 50000 1).Maps 10 p2.internal.port p2.external.port ∧
      (PortRule.sequential 50000 1).Maps 11 q.internal.port q.external.port ∧
      Misses p0 p1 p2 q := by
  refine ⟨mp 40000 50000, mp 33333 50003, mp 41234 50010, mp 45555 50011, rfl, rfl, rfl, rfl, ?_⟩
  refine misses_of (t := .deltaIndep 5 50010)
    (ports := [50015, 50016, 50017, 50018, 50019, 50020, 50021, 50022, 50023, 50024, 50025])
    ?_ (fun c => ?_) ?_
  · rw [portTranslation_eq]; decide
  · simp only [anticipatedPorts, triple_small (c := c) (d := 5) (by decide) (by decide)]
    decide
  · decide

/-- A NAT that counts down: the highest port is taken for the last one. -/
theorem C121_counterexample_descending :
    Misses (mp 40000 50002) (mp 33333 50001) (mp 41234 50000) (mp 45555 49999) := by
  refine misses_of (t := .deltaIndep 1 50002) (ports := [50003, 50004, 50005]) ?_ (fun c => ?_) ?_
  · rw [portTranslation_eq]; decide
  · simp only [anticipatedPorts, triple_small (c := c) (d := 1) (by decide) (by decide)]
    decide
  · decide

/-- The address that is taken for the last one depends on the order in which the servers answered,
if two addresses end in the same octet. -/
theorem C121_counterexample_address_depends_on_order :
    ∃ p0 p1 p2 : Pair, ipTranslation p0 p1 p2 ≠ ipTranslation p1 p0 p2 := by
  refine ⟨⟨⟨anyIp, 1⟩, ⟨.v4 1 7, 1⟩⟩, ⟨⟨anyIp, 1⟩, ⟨.v4 2 7, 1⟩⟩, ⟨⟨anyIp, 1⟩, ⟨.v4 3 7, 1⟩⟩, ?_⟩
  simp only [ipTranslation, averageDelta_three]
  decide

/-! ## C122: what is tried -/

theorem bandSets_ok {c : Bool} {nat : NatType} {refl : List Addr} :
    ∀ {ints : List Addr} {sets : List (List Band)}, bandSets c nat refl ints = .ok sets →
      sets.length = ints.length ∧
      ∀ i (h : i < ints.length) (h' : i < sets.length),
        bandSet c nat refl ints[i] = .ok sets[i]
  | [], sets, h => by
    simp only [bandSets, Res.ok.injEq] at h; subst h; exact ⟨rfl, fun i h => absurd h (by simp)⟩
  | a :: l, sets, h => by
    simp only [bandSets] at h
    cases hb : bandSet c nat refl a with
    | err => rw [hb] at h; cases h
    | panic => rw [hb] at h; cases h
    | ok b =>
      rw [hb] at h
      simp only [Res.bind] at h
      cases hbs : bandSets c nat refl l with
      | err => rw [hbs] at h; cases h
      | panic => rw [hbs] at h; cases h
      | ok bs =>
        rw [hbs] at h
        simp only [Res.ok.injEq] at h
        subst h
        have ih := bandSets_ok hbs
        refine ⟨by simp [ih.1], ?_⟩
        intro i hi hi'
        match i with
        | 0 => exact hb
        | i + 1 => exact ih.2 i _ _

theorem Addr.eq_of {a b : Addr} (h1 : a.ip = b.ip) (h2 : a.port = b.port) : a = b := by
  cases a; cases b; simp_all

theorem nodup_unique : ∀ (k : Nat) (l : List Band), l.length ≤ k → (unique l).Nodup
  | _, [], _ => by simp [unique]
  | 0, _ :: _, h => absurd h (by simp)
  | k + 1, a :: l, h => by
    unfold unique
    rw [List.eraseDups_cons, List.nodup_cons]
    refine ⟨?_, nodup_unique k _ ?_⟩
    · rw [List.mem_eraseDups, List.mem_filter]; simp
    · have := List.length_filter_le (fun b => !b == a) l
      simp only [List.length_cons] at h; omega

theorem mem_unique {l : List Band} {b : Band} : b ∈ unique l ↔ b ∈ l := List.mem_eraseDups

/-- The candidates of a set, apart from repetitions, are: what is predicted (the address of the
peer's socket itself, if nothing is), the observed addresses, and the two local hosts. -/
theorem C122_candidates {c : Bool} {nat : NatType} {ints refl : List Addr} {k : Nat}
    {sets : List (List Band)} (h : configNew c nat ints refl k = .ok sets) :
    sets.length = ints.length ∧
    ∀ i (hi : i < ints.length) (hs : i < sets.length), ∃ p, nat.predict c ints[i] = .ok p ∧
      ∀ a, Tried sets[i] a ↔
        ((∃ bands, p = some bands ∧ Tried bands a) ∨ (p = none ∧ a = ints[i]) ∨ a ∈ refl ∨
          a = ⟨localhost4, ints[i].port⟩ ∨ a = ⟨localhost6, ints[i].port⟩) := by
  unfold configNew at h
  split at h
  · obtain ⟨hl, hb⟩ := bandSets_ok h
    refine ⟨hl, fun i hi hs => ?_⟩
    have hb := hb i hi hs
    unfold bandSet at hb
    cases hp : nat.predict c ints[i] with
    | err => rw [hp] at hb; cases hb
    | panic => rw [hp] at hb; cases hb
    | ok p =>
      rw [hp] at hb
      simp only [Res.bind, Res.ok.injEq] at hb
      refine ⟨p, rfl, fun a => ?_⟩
      unfold Tried
      rw [← hb, mem_addrsOf]
      simp only [mem_unique, List.mem_append, localhostBands, List.mem_cons, List.not_mem_nil,
        or_false, List.mem_map]
      constructor
      · rintro ⟨b, hb, hip, hport⟩
        rcases hb with (hb | ⟨r, hr, rfl⟩) | rfl | rfl
        · cases p with
          | some bands => exact .inl ⟨bands, rfl, mem_addrsOf.2 ⟨b, hb, hip, hport⟩⟩
          | none =>
            simp only [List.mem_singleton] at hb
            subst hb
            simp only [List.mem_singleton] at hip hport
            refine .inr (.inl ⟨rfl, ?_⟩)
            exact Addr.eq_of hip.symm hport
        · simp only [List.mem_singleton] at hip hport
          refine .inr (.inr (.inl ?_))
          cases a; cases r; simp_all
        · simp only [List.mem_singleton] at hip hport
          refine .inr (.inr (.inr (.inl ?_)))
          cases a; simp_all
        · simp only [List.mem_singleton] at hip hport
          refine .inr (.inr (.inr (.inr ?_)))
          cases a; simp_all
      · rintro (⟨bands, rfl, ht⟩ | ⟨rfl, rfl⟩ | hr | rfl | rfl)
        · obtain ⟨b, hb, hip, hport⟩ := mem_addrsOf.1 ht
          exact ⟨b, .inl (.inl hb), hip, hport⟩
        · exact ⟨_, .inl (.inl (List.mem_singleton.2 rfl)), rfl, List.mem_singleton.2 rfl⟩
        · exact ⟨_, .inl (.inr ⟨a, hr, rfl⟩), rfl, List.mem_singleton.2 rfl⟩
        · exact ⟨_, .inr (.inl rfl), rfl, List.mem_singleton.2 rfl⟩
        · exact ⟨_, .inr (.inr rfl), rfl, List.mem_singleton.2 rfl⟩
  · cases h

example : ∃ sets, configNew true ⟨.constant (pub 9), .identity, some ⟨localhost4, none⟩, false⟩
    [⟨anyIp, 40000⟩] [⟨pub 9, 41000⟩] 1 = .ok sets ∧ (sets.map addrsOf) =
      [[⟨pub 9, 40000⟩, ⟨localhost4, 40000⟩, ⟨pub 9, 41000⟩, ⟨localhost6, 40000⟩]] :=
  ⟨_, rfl, by decide +kernel⟩

/-- A band is kept once. -/
theorem C122_no_band_twice {c : Bool} {nat : NatType} {ints refl : List Addr} {k : Nat}
    {sets : List (List Band)} (h : configNew c nat ints refl k = .ok sets) :
    ∀ s ∈ sets, s.Nodup := by
  unfold configNew at h
  split at h
  · obtain ⟨hl, hb⟩ := bandSets_ok h
    intro s hs
    obtain ⟨i, hi, rfl⟩ := List.mem_iff_getElem.1 hs
    have hb := hb i (by omega) hi
    unfold bandSet at hb
    cases hp : nat.predict c ints[i] with
    | err => rw [hp] at hb; cases hb
    | panic => rw [hp] at hb; cases hb
    | ok p =>
      rw [hp] at hb
      simp only [Res.bind, Res.ok.injEq] at hb
      rw [← hb]
      exact nodup_unique _ _ (Nat.le_refl _)
  · cases h

/-- A socket pings the candidates of its own version of IP, all of them and no others. -/
theorem C122_socket_pings_its_version {sockets : List Addr} {sets : List (List Band)} {i : Nat}
    (h1 : i < sockets.length) (h2 : i < sets.length) :
    ∃ l, (toPing sockets sets)[i]? = some l ∧
      ∀ a, a ∈ l ↔ Tried sets[i] a ∧ a.ip.isV4 = sockets[i].ip.isV4 := by
  refine ⟨keepFor sockets[i] (addrsOf sets[i]), ?_, fun a => ?_⟩
  · simp [toPing, List.getElem?_eq_getElem h1, List.getElem?_eq_getElem h2, List.zip, 
      List.getElem?_zipWith]
  · unfold keepFor Tried
    cases sockets[i].ip.isV4 <;> simp [List.mem_filter]

/-- So an observed address is pinged by every socket of its version. -/
theorem C122_observed_address_is_pinged {c : Bool} {nat : NatType} {ints refl sockets : List Addr}
    {sets : List (List Band)} (h : configNew c nat ints refl sockets.length = .ok sets)
    {i : Nat} (hi : i < sockets.length) {a : Addr} (ha : a ∈ refl)
    (hv : a.ip.isV4 = sockets[i].ip.isV4) :
    ∃ l, (toPing sockets sets)[i]? = some l ∧ a ∈ l := by
  have hlen : ints.length = sockets.length := by
    unfold configNew at h
    split at h
    · assumption
    · cases h
  obtain ⟨hl, hc⟩ := C122_candidates h
  obtain ⟨l, h1, h2⟩ := C122_socket_pings_its_version (sets := sets) hi (by omega)
  obtain ⟨p, -, hp⟩ := hc i (by omega) (by omega)
  exact ⟨l, h1, (h2 a).2 ⟨(hp a).2 (.inr (.inr (.inl ha))), hv⟩⟩

/-- `192.168.1.h`. -/
def lan (h : UInt8) : Ip := .v4 0xc0a801#24 h

/-- Without a translation of ports, the internal address that was found out, with the port of the
socket, is tried. -/
theorem C122_internal_address_partial {c : Bool} {n : NatType} {a : Addr} {i : IpInfo}
    {bands : List Band} (hp : n.port = .identity) (hinfo : n.info = some i)
    (h : n.predict c a = .ok (some bands)) : Tried bands ⟨i.internalIp, a.port⟩ := by
  unfold NatType.predict at h
  rw [hp] at h
  simp only [anticipatedPorts, Res.bind] at h
  cases hb : baseIps c n.ip a.ip with
  | err => rw [hb] at h; cases h
  | panic => rw [hb] at h; cases h
  | ok o =>
    rw [hb] at h
    cases o with
    | none => cases h
    | some ips =>
      simp only [Res.ok.injEq, Option.some.injEq] at h
      rw [← h]
      apply mem_addrsOf.2
      have key : ∃ b ∈ infoBands n.info [a.port] (ips.map fun ip => ⟨ip, [a.port]⟩),
          b.ip = i.internalIp ∧ a.port ∈ b.ports := by
        have hall : ∀ b ∈ infoBands n.info [a.port] (ips.map fun ip => ⟨ip, [a.port]⟩),
            b.ports = [a.port] := by
          rw [hinfo]
          intro b hb
          unfold infoBands at hb
          dsimp only at hb
          split at hb <;> split at hb <;>
            simp only [List.mem_append, List.mem_map, List.mem_singleton] at hb <;>
            grind
        have hex : ∃ b ∈ infoBands n.info [a.port] (ips.map fun ip => ⟨ip, [a.port]⟩),
            b.ip = i.internalIp := by
          rw [hinfo]
          unfold infoBands
          dsimp only
          split
          all_goals
            split
            · exact ⟨_, List.mem_append_right _ (List.mem_singleton.2 rfl), rfl⟩
            · next hx =>
              simp only [List.all_eq_true, decide_eq_true_eq] at hx
              apply Classical.byContradiction
              intro hy
              exact hx fun b hb he => hy ⟨b, hb, he⟩
        obtain ⟨b, hb, he⟩ := hex
        exact ⟨b, hb, he, by rw [hall b hb]; simp⟩
      obtain ⟨b, hb, h1, h2⟩ := key
      exact ⟨b, mem_finalBand hb, h1, h2⟩


example : ∃ bands, (NatType.mk (.constant (pub 9)) .identity (some ⟨lan 5, none⟩) false).predict true
    ⟨anyIp, 40000⟩ = .ok (some bands) ∧ Tried bands ⟨lan 5, 40000⟩ :=
  ⟨_, rfl, by unfold Tried; decide⟩

/-- With a translation of ports, the address in the local network is tried with the translated port
only: a peer in the same network is not reached at its own address. -/
theorem C122_counterexample_local_network :
    ∃ (n : NatType) (a : Addr), n.info = some ⟨lan 5, none⟩ ∧ a.ip = lan 5 ∧
      ∀ c, ∃ bands, n.predict c a = .ok (some bands) ∧ ¬ Tried bands a := by
  refine ⟨⟨.constant (pub 9), .deltaConst 100, some ⟨lan 5, none⟩, false⟩, ⟨lan 5, 40000⟩, rfl, rfl,
    fun c => ?_⟩
  refine ⟨_, predict_of (ports := [40100]) (ips := [pub 9]) ?_ rfl, ?_⟩
  · simp only [anticipatedPorts]; decide +kernel
  · unfold Tried; decide

/-- The address of the socket itself is left out if some band merely has the same port: this is the
case for the most common NAT, that keeps the port and has one address. -/
theorem C122_counterexample_same_port (x y : Ip) (a : Addr) (v6 c : Bool) (hx : x ≠ a.ip)
    (hy : y ≠ a.ip) :
    ∃ bands, (NatType.mk (.constant x) .identity (some ⟨y, none⟩) v6).predict c a =
      .ok (some bands) ∧ ¬ Tried bands a := by
  refine ⟨_, predict_of (ports := [a.port]) (ips := [x]) rfl rfl, ?_⟩
  unfold Tried
  rw [mem_addrsOf]
  rintro ⟨b, hb, h1, -⟩
  unfold finalBand infoBands at hb
  simp only [List.map_cons, List.map_nil] at hb
  split at hb <;> simp at hb <;> grind

/-! ## C123: the peer cannot make it fail or make it large -/

theorem portTranslation_small (p0 p1 p2 : Pair) {d : Int} {l : UInt16}
    (h : portTranslation p0 p1 p2 = .deltaIndep d l) : 0 ≤ d ∧ d ≤ 5 := by
  rw [portTranslation_eq] at h
  dsimp only at h
  split at h
  · cases h
  · split at h
    · cases h
    · split at h
      · injection h with h _; omega
      · cases h

theorem ipTranslation_small (p0 p1 p2 : Pair) {d : Int} {l : Ip}
    (h : ipTranslation p0 p1 p2 = .deltaIndep d l) : 0 ≤ d ∧ d ≤ 5 := by
  unfold ipTranslation at h
  dsimp only at h
  split at h
  · cases h
  · split at h
    · cases h
    · split at h
      · next hm => simp only [maxOctetDelta] at hm; injection h with h _; omega
      · cases h

/-- A prediction with small means: no panic, at most eleven ports. -/
theorem anticipatedPorts_small {c : Bool} {t : PortTrans} (p : UInt16)
    (h : ∀ d l, t = .deltaIndep d l → 0 ≤ d ∧ d ≤ 5) :
    ∃ o, anticipatedPorts c t p = .ok o ∧ ∀ ports, o = some ports → ports.length ≤ 11 := by
  cases t with
  | identity => exact ⟨_, rfl, by rintro _ ⟨⟩; simp⟩
  | deltaConst d => exact ⟨_, rfl, by rintro _ ⟨⟩; simp⟩
  | unpredictable => exact ⟨_, rfl, by rintro _ ⟨⟩⟩
  | deltaIndep d l =>
    obtain ⟨h0, h5⟩ := h d l rfl
    simp only [anticipatedPorts, triple_small (c := c) h0 h5, Res.bind]
    exact ⟨_, rfl, by rintro _ ⟨⟩; simp only [List.length_map, length_rangeIncl]; omega⟩

theorem baseIps_small {c : Bool} {t : IpTrans} (p : Ip)
    (h : ∀ d l, t = .deltaIndep d l → 0 ≤ d ∧ d ≤ 5) :
    ∃ o, baseIps c t p = .ok o ∧ ∀ ips, o = some ips → ips.length ≤ 11 := by
  cases t with
  | identity => exact ⟨_, rfl, by rintro _ ⟨⟩; simp⟩
  | constant d => exact ⟨_, rfl, by rintro _ ⟨⟩; simp⟩
  | unpredictable => exact ⟨_, rfl, by rintro _ ⟨⟩⟩
  | deltaIndep d l =>
    obtain ⟨h0, h5⟩ := h d l rfl
    simp only [baseIps, triple_small (c := c) h0 h5, Res.bind]
    exact ⟨_, rfl, by rintro _ ⟨⟩; simp only [List.length_map, length_rangeIncl]; omega⟩

theorem addrsOf_append (l m : List Band) : addrsOf (l ++ m) = addrsOf l ++ addrsOf m := by
  simp [addrsOf]

theorem addrsOf_length_le {l : List Band} {k : Nat} (h : ∀ b ∈ l, b.ports.length ≤ k) :
    (addrsOf l).length ≤ l.length * k := by
  induction l with
  | nil => simp [addrsOf]
  | cons b l ih =>
    have h1 := h b (by simp)
    have h2 := ih fun b hb => h b (by simp [hb])
    have h3 : (addrsOf (b :: l)).length = b.ports.length + (addrsOf l).length := by
      simp [addrsOf, Band.addrs]
    rw [h3, List.length_cons, Nat.succ_mul]
    omega

theorem infoBands_small {info : Option IpInfo} {ports : List UInt16} {bands : List Band} :
    (infoBands info ports bands).length ≤ bands.length + 2 ∧
    ∀ b ∈ infoBands info ports bands, b ∈ bands ∨ b.ports = ports := by
  unfold infoBands
  cases info with
  | none => exact ⟨by simp, fun b hb => .inl hb⟩
  | some i =>
    dsimp only
    split <;> split <;> constructor <;> grind

/-- The NAT type that a node finds out about itself, whatever three mappings it saw: the prediction
does not panic and has at most 144 addresses. -/
theorem C123_honest_prediction_bounded (c v6 : Bool) (info : Option IpInfo) (p0 p1 p2 : Pair)
    (a : Addr) :
    ∃ o, ({ NatType.new v6 p0 p1 p2 with info := info }).predict c a = .ok o ∧
      ∀ bands, o = some bands → (addrsOf bands).length ≤ 144 := by
  obtain ⟨o, ho, hl⟩ := anticipatedPorts_small (c := c) a.port
    (fun d l h => portTranslation_small p0 p1 p2 (d := d) (l := l) h)
  obtain ⟨o', ho', hl'⟩ := baseIps_small (c := c) a.ip
    (fun d l h => ipTranslation_small p0 p1 p2 (d := d) (l := l) h)
  unfold NatType.predict NatType.new
  simp only
  rw [ho]
  simp only [Res.bind]
  cases o with
  | none => exact ⟨none, rfl, by rintro _ ⟨⟩⟩
  | some ports =>
    simp only
    rw [ho']
    cases o' with
    | none => exact ⟨none, rfl, by rintro _ ⟨⟩⟩
    | some ips =>
      refine ⟨_, rfl, ?_⟩
      rintro _ ⟨⟩
      have hp := hl ports rfl
      have hi := hl' ips rfl
      obtain ⟨h1, h2⟩ := infoBands_small (info := info) (ports := ports)
        (bands := ips.map fun ip => (⟨ip, ports⟩ : Band))
      rw [List.length_map] at h1
      have h3 := addrsOf_length_le (l := infoBands info ports (ips.map fun ip => ⟨ip, ports⟩))
        (k := 11) (by
          intro b hb
          rcases h2 b hb with h | h
          · obtain ⟨ip, -, rfl⟩ := List.mem_map.1 h; exact hp
          · rw [h]; exact hp)
      unfold finalBand
      split
      · rw [addrsOf_append]
        simp only [List.length_append]
        simp only [addrsOf, Band.addrs, List.flatMap_cons, List.flatMap_nil, List.length_append,
          List.length_map, List.length_reverse, List.length_cons, List.length_nil] at h3 ⊢
        omega
      · omega

/-- Two nodes that tell each other their own NAT types open the same number of sockets, so that the
lists of addresses have the length that is asserted. -/
theorem C123_honest_lengths_agree (n m : NatType) : socketCount n m = socketCount m n := by
  have key (a b c d : Bool) : (a && b && c && d) = (d && c && b && a) := by
    cases a <;> cases b <;> cases c <;> cases d <;> rfl
  have h : optimalIsV6 n m = optimalIsV6 m n := key _ _ _ _
  unfold socketCount; rw [h]

/-- The number of the addresses is asserted, not checked: a peer that sends another number of them
makes the call panic. -/
theorem C123_counterexample_panic_by_number (c : Bool) (nat : NatType) (ints refl : List Addr)
    (k : Nat) (h : ints.length ≠ k) : configNew c nat ints refl k = .panic := by
  unfold configNew; rw [if_neg h]

/-- With overflow checks, a NAT type from the peer makes the prediction panic. -/
theorem C123_counterexample_panic_by_overflow (a : Addr) (ip : IpTrans) (info : Option IpInfo)
    (v6 : Bool) (l : UInt16) {d : Int} (h : 715827883 ≤ d) :
    (NatType.mk ip (.deltaIndep d l) info v6).predict true a = .panic := by
  unfold NatType.predict anticipatedPorts triple
  simp only
  rw [if_neg (by omega)]
  rfl

/-- Without a panic, a NAT type from the peer has more than a thousand million ports. -/
theorem C123_counterexample_many_candidates (c : Bool) (a : Addr) :
    ∃ (n : NatType) (bands : List Band), n.predict c a = .ok (some bands) ∧
      1000000000 < (addrsOf bands).length := by
  have ht : triple c 715827882 = .ok 2147483646 := by
    unfold triple; rw [if_pos (by omega)]; rfl
  refine ⟨⟨.constant (pub 9), .deltaIndep 715827882 5000, none, false⟩, _,
    predict_of (ips := [pub 9])
      (ports := (rangeIncl 715827882 2147483646).map (wrappingPortAdd 5000)) ?_ rfl, ?_⟩
  · simp only [anticipatedPorts, ht, Res.bind]
  · generalize hP : (rangeIncl 715827882 2147483646).map (wrappingPortAdd 5000) = P
    have hlen : P.length = 1431655765 := by
      rw [← hP, List.length_map, length_rangeIncl]; rfl
    have h1 : P.length ≤ (addrsOf [⟨pub 9, P⟩]).length := by simp [addrsOf, Band.addrs]
    have h2 : (addrsOf [⟨pub 9, P⟩]).length ≤ (addrsOf (finalBand a [⟨pub 9, P⟩])).length := by
      unfold finalBand
      split
      · rw [addrsOf_append, List.length_append]; omega
      · exact Nat.le_refl _
    have h3 : infoBands none P (List.map (fun ip => (⟨ip, P⟩ : Band)) [pub 9]) = [⟨pub 9, P⟩] := rfl
    simp only [h3]
    omega

/-- The observed addresses of the peer are taken as they are: any address, of anybody, is tried. -/
theorem C123_counterexample_any_target (c : Bool) (a : Addr) (targets : List Addr) :
    ∃ (nat : NatType) (sets : List (List Band)), configNew c nat [a] targets 1 = .ok sets ∧
      ∀ t ∈ targets, ∀ s ∈ sets, Tried s t := by
  refine ⟨offline, _, rfl, ?_⟩
  intro t ht s hs
  simp only [List.mem_singleton] at hs
  subst hs
  apply mem_addrsOf.2
  refine ⟨⟨t.ip, [t.port]⟩, mem_unique.2 ?_, rfl, by simp⟩
  apply List.mem_append_left
  apply List.mem_append_right
  exact List.mem_map.2 ⟨t, ht, rfl⟩

/-! ## C124: a node is said to be reachable only if its mappings can be predicted -/

/-- `TURN` is required exactly if there is no prediction. -/
theorem C124_turn_iff_no_prediction {c : Bool} {n : NatType} {a : Addr}
    {o : Option (List Band)} (h : n.predict c a = .ok o) : o = none ↔ n.needsTurn = true := by
  obtain ⟨ip, port, info, v6⟩ := n
  unfold NatType.predict at h
  simp only at h
  unfold NatType.needsTurn
  cases port with
  | unpredictable =>
    simp only [anticipatedPorts, Res.bind, Res.ok.injEq] at h
    simp [← h]
  | _ =>
    simp only [anticipatedPorts] at h
    try (cases ht : triple c _ with
      | ok x => _
      | err => rw [ht] at h; cases h
      | panic => rw [ht] at h; cases h)
    all_goals
      try rw [ht] at h
      simp only [Res.bind] at h
      cases ip with
      | unpredictable => simp only [baseIps, Res.ok.injEq] at h; simp [← h]
      | deltaIndep d l =>
        simp only [baseIps] at h
        cases ht' : triple c d with
        | ok y => rw [ht'] at h; simp only [Res.bind, Res.ok.injEq] at h; simp [← h]
        | err => rw [ht'] at h; cases h
        | panic => rw [ht'] at h; cases h
      | _ => simp only [baseIps, Res.ok.injEq] at h; simp [← h]

/-- Two nodes are said to need a relay exactly if neither has a prediction. -/
theorem C124_relay_iff {c : Bool} {n m : NatType} {a b : Addr} {o o' : Option (List Band)}
    (h : n.predict c a = .ok o) (h' : m.predict c b = .ok o') :
    n.stunCompatible m = false ↔ o = none ∧ o' = none := by
  unfold NatType.stunCompatible
  rw [C124_turn_iff_no_prediction h, C124_turn_iff_no_prediction h']
  cases n.needsTurn <;> cases m.needsTurn <;> simp

/-- If at least three servers answered, and all of them did, the NAT type is made from three of the
mappings that were seen. -/
theorem C124_identified_partial (v6 : Bool) (pairs : List Pair) (info : IpInfo)
    (h : 3 ≤ pairs.length) :
    ∃ p0 ∈ pairs, ∃ p1 ∈ pairs, ∃ p2 ∈ pairs,
      identify v6 (some (pairs.map fun p => .ok (some p))) info =
        { NatType.new v6 p0 p1 p2 with info := some info } := by
  unfold identify getNatType
  dsimp only
  rw [← List.map_reverse]
  have hm : ∀ p, p ∈ pairs.reverse → p ∈ pairs := fun p hp => List.mem_reverse.1 hp
  have hl : 3 ≤ pairs.reverse.length := by simpa using h
  match hr : pairs.reverse with
  | p0 :: p1 :: p2 :: l =>
    rw [hr] at hm
    exact ⟨p0, hm _ (by simp), p1, hm _ (by simp), p2, hm _ (by simp), rfl⟩
  | [] => rw [hr] at hl; simp at hl
  | [_] => rw [hr] at hl; simp at hl
  | [_, _] => rw [hr] at hl; simp at hl

/-- A node that got no answer at all is said to be reachable directly. -/
theorem C124_counterexample_no_answer (v6 : Bool) (info : IpInfo) :
    (identify v6 none info).needsTurn = false ∧
    (identify v6 (some [.err, .err, .err]) info).needsTurn = false := ⟨rfl, rfl⟩

/-- Any number of servers may have answered: if the last one fails, the mappings are not used, and
the node is taken to be offline. -/
theorem C124_counterexample_one_server (v6 : Bool) (pairs : List Pair) (info : IpInfo) :
    identify v6 (some (pairs.map (fun p => .ok (some p)) ++ [.err])) info = offline := by
  unfold identify getNatType
  simp only [List.reverse_append, List.reverse_cons, List.reverse_nil, List.nil_append,
    List.singleton_append]
  split
  · next h =>
    revert h
    split
    · next r0 r1 r2 l hr =>
      injection hr with hr _
      subst hr
      intro h; cases h
    · intro h; cases h
  · rfl

/-- Two servers are never enough. -/
theorem C124_counterexample_two_servers (v6 : Bool) (p0 p1 : Pair) (info : IpInfo) :
    identify v6 (some [.ok (some p0), .ok (some p1)]) info = offline := rfl

/-- External addresses in networks that have nothing to do with each other count as predictable if
they end in the same octet: the first one is predicted. -/
theorem C124_counterexample_networks (a b d : BitVec 24) (h : UInt8) (i0 i1 i2 e0 e1 e2 : UInt16)
    (hab : a ≠ b) (ha : anyIp ≠ .v4 a h) :
    ipTranslation ⟨⟨anyIp, i0⟩, ⟨.v4 a h, e0⟩⟩ ⟨⟨anyIp, i1⟩, ⟨.v4 b h, e1⟩⟩
      ⟨⟨anyIp, i2⟩, ⟨.v4 d h, e2⟩⟩ = .deltaIndep 0 (.v4 a h) := by
  unfold ipTranslation
  simp only [averageDelta_three]
  rw [if_neg (by rintro ⟨h1, -⟩; exact ha h1),
    if_neg (by rintro ⟨h1, -⟩; injection h1 with h1 _; exact hab h1)]
  simp [Ip.lastOctet, maxOctetDelta]

end Verif.NatPred

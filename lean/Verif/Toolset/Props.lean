import Verif.Toolset.Lemmas

/-! Properties C05, C06, C07 of the ratchet store. -/
namespace Verif.Toolset
variable {β : Type}

/-- The two ways the code builds a toolset: `Toolset::new` with a version-0 ratchet, or from a
(static auxiliary, current) pair of any version. -/
inductive Fresh : Toolset β → Ratchet β → Ratchet β → Prop where
  | new (cid : Nat) (r : Ratchet β) (h : r.version = 0) : Fresh (new cid r) r r
  | pair (aux r : Ratchet β) : Fresh (ofPair aux r) aux r

theorem Fresh.inv {t : Toolset β} {aux r : Ratchet β} (h : Fresh t aux r) : Inv t := by
  cases h with
  | new cid _ h => exact inv_new cid _ h
  | pair aux r => exact inv_ofPair aux r

theorem Fresh.map {t : Toolset β} {aux r : Ratchet β} (h : Fresh t aux r) : t.map = [r] := by
  cases h <;> rfl

theorem Fresh.aux {t : Toolset β} {aux r : Ratchet β} (h : Fresh t aux r) : t.staticAux = aux := by
  cases h <;> rfl

/-- **C05 (content).** After any history, a lookup by version is a search for that version among exactly the
ratchets the history says are held, newest first. So an answer always carries the version asked for and was
really committed (or was the initial ratchet). -/
theorem C05_lookup_is_committed_ratchet (maxR : Nat) (hmax : 2 ≤ maxR) (t : Toolset β) (aux r₀ : Ratchet β)
    (hf : Fresh t aux r₀) (ops : List (Op β)) (v : BitVec 32) :
    getRatchet (run maxR t ops).1 v =
      (retained [r₀] (run maxR t ops).2).find? (fun r => r.version = v) := by
  have hinv := inv_run maxR hmax t hf.inv ops
  rw [← hf.map, ← map_run]
  exact getElem?_eq_find? _ _ _ hinv.versions

/-- **C05 (range).** A lookup succeeds exactly for the versions from the reported oldest to the reported newest
(counted with wrap-around), as long as fewer than 2^32 ratchets are held; and the reported newest and oldest
versions are those of the newest and oldest ratchet held. -/
theorem C05_lookup_range (maxR : Nat) (hmax : 2 ≤ maxR) (t : Toolset β) (aux r₀ : Ratchet β)
    (hf : Fresh t aux r₀) (ops : List (Op β))
    (hlen : (retained [r₀] (run maxR t ops).2).length ≤ 2 ^ 32) :
    let s := (run maxR t ops).1
    (∀ v, (getRatchet s v).isSome ↔ (v - s.oldest).toNat ≤ (s.mostRecent - s.oldest).toNat) ∧
    (∃ r, (retained [r₀] (run maxR t ops).2).head? = some r ∧ r.version = s.mostRecent ∧
      getMostRecent s = some r) ∧
    (∃ r, (retained [r₀] (run maxR t ops).2).getLast? = some r ∧ r.version = s.oldest ∧
      getOldest s = some r) := by
  intro s
  have hinv : Inv s := inv_run maxR hmax t hf.inv ops
  have hmap : s.map = retained [r₀] (run maxR t ops).2 := by rw [← hf.map, ← map_run]
  have hpos : 0 < s.map.length := List.length_pos_iff.2 hinv.ne
  rw [← hmap] at hlen ⊢
  refine ⟨?_, ?_, ?_⟩
  · intro v
    unfold getRatchet adjustedIndex
    rw [show (s.map[(s.mostRecent - v).toNat]?).isSome = true ↔ (s.mostRecent - v).toNat < s.map.length by simp,
      hinv.oldest]
    have hb : (BitVec.ofNat 32 (s.map.length - 1)).toNat = s.map.length - 1 := by
      rw [BitVec.toNat_ofNat, Nat.mod_eq_of_lt (by omega)]
    generalize BitVec.ofNat 32 (s.map.length - 1) = b at *
    constructor
    · intro h; bv_omega
    · intro h; bv_omega
  · obtain ⟨r, l, hl⟩ := List.exists_cons_of_ne_nil hinv.ne
    refine ⟨r, by rw [hl]; rfl, ?_, by unfold getMostRecent; rw [hl]; rfl⟩
    have := hinv.versions 0 hpos
    simpa [hl] using this
  · refine ⟨s.map.getLast hinv.ne, List.getLast?_eq_some_getLast hinv.ne, ?_,
      List.getLast?_eq_some_getLast hinv.ne⟩
    rw [List.getLast_eq_getElem, hinv.versions, hinv.oldest]

/-- Versions wrap: a toolset built at version `u32::MAX` accepts version 0 next and both are found. -/
example : let a : Ratchet Nat := ⟨7, 0xFFFFFFFF, 1⟩; let b : Ratchet Nat := ⟨7, 0, 2⟩
    Fresh (ofPair a a) a a ∧
    getRatchet (run 6 (ofPair a a) [.update b]).1 0 = some b ∧
    getRatchet (run 6 (ofPair a a) [.update b]).1 0xFFFFFFFF = some a ∧
    getRatchet (run 6 (ofPair a a) [.update b]).1 1 = none :=
  ⟨Fresh.pair _ _, by decide, by decide, by decide⟩

/-- **C06 (updates).** In every state, an update is committed exactly when it carries the toolset's cid and the
next version; otherwise it is refused and the toolset is unchanged. -/
theorem C06_update_gate (maxR : Nat) (t : Toolset β) (r : Ratchet β) :
    ((∃ s, (step maxR t (.update r)).2 = .committed r s) ↔
      r.cid = t.cid ∧ r.version = t.mostRecent + 1) ∧
    ((¬ ∃ s, (step maxR t (.update r)).2 = .committed r s) →
      (step maxR t (.update r)).1 = t ∧ (step maxR t (.update r)).2 = .updateRefused r) := by
  rcases step_update maxR t r with ⟨h1, h2, h3⟩ | ⟨h1, h3⟩
  · simp [h3, h1, h2]
  · simp only [h3, reduceCtorEq, exists_false, false_iff, not_false_eq_true, and_self, implies_true,
      and_true]
    exact h1

/-- **C06 (deregistrations).** In every non-empty state, a deregistration succeeds exactly when the store is at
capacity and the version is the oldest; otherwise it is refused and the toolset is unchanged. -/
theorem C06_deregister_gate (maxR : Nat) (t : Toolset β) (hne : t.map ≠ []) (v : BitVec 32) :
    ((step maxR t (.deregister v)).2 = .dropped v ↔ maxR ≤ t.map.length ∧ v = t.oldest) ∧
    ((step maxR t (.deregister v)).2 ≠ .dropped v →
      (step maxR t (.deregister v)).1 = t ∧ (step maxR t (.deregister v)).2 = .dropRefused v) := by
  rcases step_deregister maxR t v with ⟨h1, h2, h4, h3⟩ | ⟨h1, h3⟩
  · rw [h3]; exact ⟨⟨fun _ => ⟨h1, h2⟩, fun _ => rfl⟩, fun h => absurd rfl h⟩
  · simp only [h3, reduceCtorEq, false_iff, ne_eq, not_false_eq_true, and_self, implies_true,
      and_true]
    exact fun h => h1 ⟨h.1, h.2, hne⟩

/-- Both gates are met and missed by concrete calls. -/
example : let a : Ratchet Nat := ⟨7, 0, 1⟩
    (step 2 (new 7 a) (.update ⟨7, 1, 5⟩)).2 = .committed ⟨7, 1, 5⟩ (.committedNeedsSynchronization 1 0) ∧
    (step 2 (new 7 a) (.update ⟨8, 1, 5⟩)).2 = .updateRefused ⟨8, 1, 5⟩ ∧
    (step 2 (new 7 a) (.update ⟨7, 2, 5⟩)).2 = .updateRefused ⟨7, 2, 5⟩ ∧
    (step 2 (new 7 a) (.deregister 0)).2 = .dropRefused 0 ∧
    (run 2 (new 7 a) [.update ⟨7, 1, 5⟩, .deregister 0]).2.getLast? = some (.dropped 0) := by decide

/-- **C07 (static ratchet).** The static auxiliary ratchet is the initial one for ever. -/
theorem C07_static_constant (maxR : Nat) (t : Toolset β) (aux r₀ : Ratchet β) (hf : Fresh t aux r₀)
    (ops : List (Op β)) : (run maxR t ops).1.staticAux = aux := by
  rw [static_run, hf.aux]

/-- **C07 (never empty).** The store never becomes empty. -/
theorem C07_never_empty (maxR : Nat) (hmax : 2 ≤ maxR) (t : Toolset β) (aux r₀ : Ratchet β)
    (hf : Fresh t aux r₀) (ops : List (Op β)) : (run maxR t ops).1.map ≠ [] :=
  (inv_run maxR hmax t hf.inv ops).ne

theorem compliant_bound (maxR : Nat) (hmax : 2 ≤ maxR) (ops : List (Op β)) (t : Toolset β) (hinv : Inv t)
    (hc : Compliant ops (run maxR t ops).2)
    (hb : t.map.length < maxR ∨
      (t.map.length = maxR ∧ ∀ op ∈ ops.head?, op = Op.deregister t.oldest)) :
    (run maxR t ops).1.map.length ≤ maxR := by
  induction ops generalizing t with
  | nil => simp only [run]; omega
  | cons op ops ih =>
    simp only [run, Compliant] at hc ⊢
    apply ih _ (inv_step maxR hmax t hinv op) hc.2
    cases op with
    | update r =>
      rcases step_update maxR t r with ⟨h1, h2, h3⟩ | ⟨h1, h3⟩
      · have hlt : t.map.length < maxR := by
          rcases hb with hb | hb
          · exact hb
          · have := hb.2 (.update r) (by simp); cases this
        by_cases h4 : t.map.length + 1 ≥ maxR
        · right
          have h5 := hc.1 r r.version t.oldest (by rw [h3]; simp [h4])
          rw [h3]
          exact ⟨by simp; omega, h5⟩
        · left; rw [h3]; simp; omega
      · rw [h3]
        rcases hb with hb | hb
        · exact Or.inl hb
        · have := hb.2 (.update r) (by simp); cases this
    | deregister v =>
      rcases step_deregister maxR t v with ⟨h1, h2, h4, h3⟩ | ⟨h1, h3⟩
      · left; rw [h3]
        have : 0 < t.map.length := List.length_pos_iff.2 h4
        simp only [List.length_dropLast]
        omega
      · rw [h3]
        rcases hb with hb | hb
        · exact Or.inl hb
        · exfalso
          have hv := hb.2 (.deregister v) (by simp)
          cases hv
          exact h1 ⟨by omega, rfl, hinv.ne⟩

/-- **C07 (bounded memory).** If the owner answers every "needs synchronization" by deregistering the version it
names, the store never holds more than the configured maximum. -/
theorem C07_memory_bounded (maxR : Nat) (hmax : 2 ≤ maxR) (t : Toolset β) (aux r₀ : Ratchet β)
    (hf : Fresh t aux r₀) (ops : List (Op β)) (hc : Compliant ops (run maxR t ops).2) :
    (run maxR t ops).1.map.length ≤ maxR := by
  apply compliant_bound maxR hmax ops t hf.inv hc
  left; rw [hf.map]; simp; omega

/-- A compliant history that reaches capacity twice; and one that is not compliant and exceeds it. -/
example : let a : Ratchet Nat := ⟨7, 0, 1⟩
    let ops : List (Op Nat) := [.update ⟨7, 1, 2⟩, .deregister 0, .update ⟨7, 2, 3⟩, .deregister 1]
    Compliant ops (run 2 (new 7 a) ops).2 ∧ (run 2 (new 7 a) ops).1.map = [⟨7, 2, 3⟩] ∧
    (run 2 (new 7 a) [.update ⟨7, 1, 2⟩, .update ⟨7, 2, 3⟩]).1.map.length = 3 := by
  refine ⟨?_, by decide, by decide⟩
  simp +decide [Compliant, run, step, updateFrom, appendRatchet, deregisterOldest, new]

end Verif.Toolset

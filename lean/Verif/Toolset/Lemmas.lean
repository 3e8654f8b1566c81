import Verif.Toolset.Spec
import Mathlib.Tactic.Tauto

namespace Verif.Toolset
variable {β : Type}

theorem step_update (maxR : Nat) (t : Toolset β) (r : Ratchet β) :
    (r.cid = t.cid ∧ r.version = t.mostRecent + 1 ∧
      step maxR t (.update r) =
        ({ t with map := r :: t.map, mostRecent := r.version },
          .committed r (if t.map.length + 1 ≥ maxR then
            .committedNeedsSynchronization r.version t.oldest else .committed r.version))) ∨
    (¬ (r.cid = t.cid ∧ r.version = t.mostRecent + 1) ∧
      step maxR t (.update r) = (t, .updateRefused r)) := by
  by_cases h1 : r.cid = t.cid
  · by_cases h2 : r.version = t.mostRecent + 1
    · left
      refine ⟨h1, h2, ?_⟩
      have h3 : ¬ (t.mostRecent ≠ r.version - 1) := by rw [h2]; simp only [not_not, ne_eq]; bv_omega
      simp only [step, updateFrom, h1, ne_eq, not_true_eq_false, if_false, h3, appendRatchet,
        List.length_cons]
      by_cases h4 : t.map.length + 1 ≥ maxR <;> simp [h4, UpdateStatus.newVersion]
    · right
      refine ⟨fun h => h2 h.2, ?_⟩
      have h3 : t.mostRecent ≠ r.version - 1 := by
        intro h; apply h2; rw [h]; bv_omega
      simp only [step, updateFrom, h1, ne_eq, not_true_eq_false, if_false, h3, not_false_eq_true, if_true]
  · right
    refine ⟨fun h => h1 h.1, ?_⟩
    simp [step, updateFrom, h1]

theorem step_deregister (maxR : Nat) (t : Toolset β) (v : BitVec 32) :
    (maxR ≤ t.map.length ∧ v = t.oldest ∧ t.map ≠ [] ∧
      step maxR t (.deregister v) =
        ({ t with map := t.map.dropLast, oldest := t.oldest + 1 }, .dropped v)) ∨
    (¬ (maxR ≤ t.map.length ∧ v = t.oldest ∧ t.map ≠ []) ∧
      step maxR t (.deregister v) = (t, .dropRefused v)) := by
  by_cases h1 : t.map.length < maxR
  · right; refine ⟨fun h => by omega, ?_⟩; simp [step, deregisterOldest, h1]
  · by_cases h2 : t.oldest = v
    · by_cases h3 : t.map = []
      · right; refine ⟨fun h => h.2.2 h3, ?_⟩
        have h1' : ¬ ([] : List (Ratchet β)).length < maxR := by rw [← h3]; exact h1
        simp only [step, deregisterOldest, h1', h2, h3, if_true, if_false, ne_eq, not_true_eq_false]
      · left; refine ⟨by omega, h2.symm, h3, ?_⟩
        simp only [step, deregisterOldest, h1, h2, h3, if_false, ne_eq, not_true_eq_false]
    · right; refine ⟨fun h => h2 h.2.1.symm, ?_⟩
      simp [step, deregisterOldest, h1, h2]

/-- Versions in the store count down from the newest, and the bookkeeping agrees. -/
structure Inv (t : Toolset β) : Prop where
  ne : t.map ≠ []
  versions : ∀ i (h : i < t.map.length), t.map[i].version = t.mostRecent - BitVec.ofNat 32 i
  oldest : t.oldest = t.mostRecent - BitVec.ofNat 32 (t.map.length - 1)

theorem inv_new (cid : Nat) (r : Ratchet β) (h : r.version = 0) : Inv (new cid r) := by
  constructor
  · simp [new]
  · intro i hi
    simp only [new, List.length_singleton] at hi ⊢
    have : i = 0 := by omega
    subst this; simp [h]
  · simp [new]

theorem inv_ofPair (aux r : Ratchet β) : Inv (ofPair aux r) := by
  constructor
  · simp [ofPair]
  · intro i hi
    simp only [ofPair, List.length_singleton] at hi ⊢
    have : i = 0 := by omega
    subst this; simp
  · simp [ofPair]

theorem ofNat_succ (i : Nat) : BitVec.ofNat 32 (i + 1) = BitVec.ofNat 32 i + 1 := by
  apply BitVec.eq_of_toNat_eq; simp [BitVec.toNat_add]

theorem inv_step (maxR : Nat) (hmax : 2 ≤ maxR) (t : Toolset β) (h : Inv t) (op : Op β) :
    Inv (step maxR t op).1 := by
  cases op with
  | update r =>
    rcases step_update maxR t r with ⟨h1, h2, h3⟩ | ⟨-, h3⟩
    · rw [h3]
      constructor
      · simp
      · intro i hi
        cases i with
        | zero => simp
        | succ i =>
          simp only [List.getElem_cons_succ]
          rw [h.versions i (by simpa using hi), h2, ofNat_succ]
          generalize BitVec.ofNat 32 i = b
          bv_omega
      · have hl : 0 < t.map.length := List.length_pos_iff.2 h.ne
        have e : (r :: t.map).length - 1 = (t.map.length - 1) + 1 := by simp; omega
        show t.oldest = r.version - BitVec.ofNat 32 ((r :: t.map).length - 1)
        rw [e, ofNat_succ, h2, h.oldest]
        generalize BitVec.ofNat 32 _ = b
        bv_omega
    · rw [h3]; exact h
  | deregister v =>
    rcases step_deregister maxR t v with ⟨h1, h2, h4, h3⟩ | ⟨-, h3⟩
    · rw [h3]
      have hl : t.map.dropLast.length = t.map.length - 1 := by simp
      constructor
      · intro hc
        have : t.map.dropLast.length = 0 := by
          have : t.map.dropLast = [] := hc
          simp [this]
        omega
      · intro i hi
        simp only [List.getElem_dropLast]
        exact h.versions i (by simp at hi; omega)
      · show t.oldest + 1 = t.mostRecent - BitVec.ofNat 32 (t.map.dropLast.length - 1)
        have e : t.map.length - 1 = (t.map.dropLast.length - 1) + 1 := by omega
        rw [h.oldest, e, ofNat_succ]
        generalize BitVec.ofNat 32 _ = b
        bv_omega
    · rw [h3]; exact h

theorem inv_run (maxR : Nat) (hmax : 2 ≤ maxR) (t : Toolset β) (h : Inv t) (ops : List (Op β)) :
    Inv (run maxR t ops).1 := by
  induction ops generalizing t with
  | nil => exact h
  | cons op ops ih => exact ih _ (inv_step maxR hmax t h op)

theorem map_step (maxR : Nat) (t : Toolset β) (op : Op β) :
    (step maxR t op).1.map = retained t.map [(step maxR t op).2] := by
  cases op with
  | update r => rcases step_update maxR t r with ⟨_, _, h3⟩ | ⟨-, h3⟩ <;> rw [h3] <;> rfl
  | deregister v => rcases step_deregister maxR t v with ⟨_, _, _, h3⟩ | ⟨-, h3⟩ <;> rw [h3] <;> rfl

theorem retained_cons (l : List (Ratchet β)) (e : Event β) (es : List (Event β)) :
    retained l (e :: es) = retained (retained l [e]) es := by
  cases e <;> rfl

theorem map_run (maxR : Nat) (t : Toolset β) (ops : List (Op β)) :
    (run maxR t ops).1.map = retained t.map (run maxR t ops).2 := by
  induction ops generalizing t with
  | nil => rfl
  | cons op ops ih => simp only [run]; rw [retained_cons, ← map_step, ih]

theorem static_step (maxR : Nat) (t : Toolset β) (op : Op β) :
    (step maxR t op).1.staticAux = t.staticAux := by
  cases op with
  | update r => rcases step_update maxR t r with ⟨_, _, h3⟩ | ⟨-, h3⟩ <;> rw [h3]
  | deregister v => rcases step_deregister maxR t v with ⟨_, _, _, h3⟩ | ⟨-, h3⟩ <;> rw [h3]

theorem static_run (maxR : Nat) (t : Toolset β) (ops : List (Op β)) :
    (run maxR t ops).1.staticAux = t.staticAux := by
  induction ops generalizing t with
  | nil => rfl
  | cons op ops ih => simp only [run]; rw [ih, static_step]

/-- Looking up an index in a list whose versions count down is the same as searching for the version. -/
theorem getElem?_eq_find? (l : List (Ratchet β)) (m v : BitVec 32)
    (hv : ∀ i (h : i < l.length), l[i].version = m - BitVec.ofNat 32 i) :
    l[(m - v).toNat]? = l.find? (fun r => r.version = v) := by
  symm
  by_cases hi : (m - v).toNat < l.length
  · rw [List.getElem?_eq_getElem hi, List.find?_eq_some_iff_getElem]
    refine ⟨?_, (m - v).toNat, hi, rfl, ?_⟩
    · simp only [hv, decide_eq_true_eq, BitVec.ofNat_toNat, BitVec.setWidth_eq]; bv_omega
    · intro j hj
      simp only [hv, Bool.not_eq_eq_eq_not, Bool.not_true, decide_eq_false_iff_not]
      intro hc
      have h1 : m - v = BitVec.ofNat 32 j := by rw [← hc]; bv_omega
      rw [h1] at hj
      simp only [BitVec.toNat_ofNat] at hj
      have := Nat.mod_le j (2 ^ 32)
      omega
  · rw [List.getElem?_eq_none (by omega), List.find?_eq_none]
    intro x hx
    obtain ⟨i, hi', rfl⟩ := List.getElem_of_mem hx
    simp only [hv, decide_eq_true_eq]
    intro hc
    have h1 : m - v = BitVec.ofNat 32 i := by rw [← hc]; bv_omega
    rw [h1] at hi
    simp only [BitVec.toNat_ofNat] at hi
    have := Nat.mod_le i (2 ^ 32)
    omega

end Verif.Toolset

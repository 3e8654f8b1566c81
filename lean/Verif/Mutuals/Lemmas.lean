import Verif.Mutuals.Model
import Mathlib.Data.List.Induction
import Mathlib.Data.List.Count

namespace Verif.Mutuals
open Verif

theorem after_snoc (ops : List Op) (op : Op) : after (ops ++ [op]) = (step (after ops) op).1 := by
  unfold after
  suffices h : ∀ s, (run s (ops ++ [op])).1 = (step (run s ops).1 op).1 from h empty
  induction ops with
  | nil => intro s; rfl
  | cons o ops ih => intro s; exact ih _

/-- How often `a` lists `b`. -/
def cnt (s : Store) (a b : Nat) : Nat := (peers s a).count b

/-- Number of pending removals of `a` from the list of `b`. -/
def pend (s : Store) (b a : Nat) : Nat := s.pending.count (b, a)

theorem removePeer_eq (s : Store) (a b : Nat) (hb : b ∈ peers s a) :
    removePeer s a b = ({ s with accts := s.accts.insert a ((peers s a).erase b) }, true) := by
  unfold removePeer; rw [if_pos hb]

theorem removePeer_no (s : Store) (a b : Nat) (hb : b ∉ peers s a) : removePeer s a b = (s, false) := by
  unfold removePeer; rw [if_neg hb]

theorem removePeer_cnt (s : Store) (a b x y : Nat) :
    cnt (removePeer s a b).1 x y = if x = a ∧ y = b then cnt s x y - 1 else cnt s x y := by
  by_cases hb : b ∈ peers s a
  · rw [removePeer_eq s a b hb]
    unfold cnt
    by_cases hx : x = a
    · subst hx
      have : peers { s with accts := s.accts.insert x ((peers s x).erase b) } x = (peers s x).erase b := by
        simp [peers]
      rw [this, List.count_erase]
      by_cases hy : y = b
      · simp [hy]
      · have : ¬ b = y := fun h => hy h.symm
        simp [hy, this]
    · have : peers { s with accts := s.accts.insert a ((peers s a).erase b) } x = peers s x := by
        simp [peers, AMap.get?_insert_ne _ _ hx]
      rw [this]; simp [hx]
  · rw [removePeer_no s a b hb]
    by_cases h : x = a ∧ y = b
    · obtain ⟨rfl, rfl⟩ := h
      have : cnt s x y = 0 := by unfold cnt; exact List.count_eq_zero.2 hb
      simp [this]
    · rw [if_neg h]

theorem peers_ne_nil_contains (s : Store) (a : Nat) (h : peers s a ≠ []) : s.accts.contains a = true := by
  unfold peers at h
  unfold AMap.contains
  cases hg : s.accts.get? a with
  | none => simp [hg] at h
  | some l => rfl

theorem cnt_pos_contains (s : Store) (a b : Nat) (h : 0 < cnt s a b) : s.accts.contains a = true := by
  refine peers_ne_nil_contains s a ?_
  intro h'
  unfold cnt at h
  rw [h'] at h
  simp at h

theorem contains_insert (m : AMap Nat (List Nat)) (a x : Nat) (l : List Nat) :
    (m.insert a l).contains x = (decide (x = a) || m.contains x) := by
  unfold AMap.contains
  rw [AMap.get?_insert]
  by_cases h : x = a <;> simp [h]

theorem removePeer_contains (s : Store) (a b x : Nat) :
    (removePeer s a b).1.accts.contains x = s.accts.contains x := by
  by_cases hb : b ∈ peers s a
  · rw [removePeer_eq s a b hb]
    show (s.accts.insert a _).contains x = _
    rw [contains_insert]
    by_cases hx : x = a
    · subst hx
      rw [peers_ne_nil_contains s x (List.ne_nil_of_mem hb)]; simp
    · simp [hx]
  · rw [removePeer_no s a b hb]

theorem removePeer_pending (s : Store) (a b : Nat) : (removePeer s a b).1.pending = s.pending := by
  unfold removePeer; split <;> rfl

theorem removePeer_dead (s : Store) (a b : Nat) : (removePeer s a b).1.deadlocked = s.deadlocked := by
  unfold removePeer; split <;> rfl

/-- One iteration of the deletion loop. -/
def delStep (c : Nat) (s : Store) (p : Nat) : Store := if s.accts.contains p then (removePeer s p c).1 else s

theorem delStep_cnt (c : Nat) (s : Store) (p x y : Nat) :
    cnt (delStep c s p) x y = if x = p ∧ y = c then cnt s x y - 1 else cnt s x y := by
  unfold delStep
  by_cases h : s.accts.contains p
  · rw [if_pos h]; exact removePeer_cnt s p c x y
  · rw [if_neg h]
    by_cases hx : x = p ∧ y = c
    · rw [if_pos hx]
      obtain ⟨rfl, rfl⟩ := hx
      have : cnt s x y = 0 := by
        by_contra h0
        exact h (cnt_pos_contains s x y (by omega))
      omega
    · rw [if_neg hx]

theorem delLoop_cnt (c : Nat) (ps : List Nat) (s : Store) (x y : Nat) :
    cnt (ps.foldl (delStep c) s) x y = if y = c then cnt s x y - ps.count x else cnt s x y := by
  induction ps generalizing s with
  | nil => simp
  | cons p ps ih =>
    rw [List.foldl_cons, ih, delStep_cnt, List.count_cons]
    by_cases hy : y = c
    · by_cases hx : x = p
      · simp [hy, hx]; omega
      · have : ¬ p = x := fun h => hx h.symm
        simp [hy, hx, this]
    · simp [hy]

theorem delLoop_other (c : Nat) (ps : List Nat) (s : Store) :
    (∀ x, (ps.foldl (delStep c) s).accts.contains x = s.accts.contains x) ∧
    (ps.foldl (delStep c) s).pending = s.pending := by
  induction ps generalizing s with
  | nil => exact ⟨fun _ => rfl, rfl⟩
  | cons p ps ih =>
    rw [List.foldl_cons]
    obtain ⟨h1, h2⟩ := ih (delStep c s p)
    have h3 : (∀ x, (delStep c s p).accts.contains x = s.accts.contains x) ∧ (delStep c s p).pending = s.pending := by
      unfold delStep
      split
      · exact ⟨fun x => removePeer_contains s p c x, removePeer_pending s p c⟩
      · exact ⟨fun _ => rfl, rfl⟩
    exact ⟨fun x => (h1 x).trans (h3.1 x), h2.trans h3.2⟩

/-- The bookkeeping invariant. -/
structure Inv (s : Store) : Prop where
  bal : ∀ a b, cnt s a b + pend s b a = cnt s b a + pend s a b
  exist : ∀ a b, 0 < cnt s a b → s.accts.contains b = true
  pex : ∀ a b, 0 < pend s a b → s.accts.contains a = true ∧ s.accts.contains b = true

/-- No two deregistrations of one pair are in progress in opposite directions. -/
def NoOpposite (s : Store) : Prop := ∀ a b, (a, b) ∈ s.pending → (b, a) ∉ s.pending

theorem inv_empty : Inv empty := by
  refine ⟨fun a b => rfl, fun a b h => ?_, fun a b h => ?_⟩
  · simp [cnt, peers, empty] at h
  · simp [pend, empty] at h

theorem inv_create (s : Store) (c : Nat) (h : Inv s) : Inv (create s c).1 := by
  unfold create
  split
  · exact h
  · rename_i hc
    have hcnt : ∀ x y, cnt { s with accts := s.accts.insert c [] } x y = cnt s x y := by
      intro x y
      unfold cnt peers
      by_cases hx : x = c
      · subst hx
        have : s.accts.get? x = none := by
          unfold AMap.contains at hc
          cases hg : s.accts.get? x <;> simp_all
        simp [this]
      · simp [AMap.get?_insert_ne _ _ hx]
    refine ⟨fun a b => ?_, fun a b hp => ?_, fun a b hp => ?_⟩
    · simp only [hcnt]; exact h.bal a b
    · simp only [hcnt] at hp
      show (s.accts.insert c []).contains b = true
      rw [contains_insert, h.exist a b hp]; simp
    · show (s.accts.insert c []).contains a = true ∧ (s.accts.insert c []).contains b = true
      obtain ⟨h1, h2⟩ := h.pex a b hp
      rw [contains_insert, contains_insert, h1, h2]; simp

theorem register_cnt (s : Store) (a b : Nat) (hab : a ≠ b) (x y : Nat) :
    cnt { s with accts := (s.accts.insert a (peers s a ++ [b])).insert b (peers s b ++ [a]) } x y =
      cnt s x y + (if (x = a ∧ y = b) ∨ (x = b ∧ y = a) then 1 else 0) := by
  unfold cnt
  by_cases hxb : x = b
  · subst hxb
    have e : peers { s with accts := (s.accts.insert a (peers s a ++ [x])).insert x (peers s x ++ [a]) } x =
        peers s x ++ [a] := by simp [peers]
    rw [e, List.count_append]
    have : ¬ x = a := fun h => hab h.symm
    by_cases hy : y = a
    · simp [hy]
    · have h' : ¬ a = y := fun h => hy h.symm
      simp [hy, this, h']
  · by_cases hxa : x = a
    · subst hxa
      have e : peers { s with accts := (s.accts.insert x (peers s x ++ [b])).insert b (peers s b ++ [x]) } x =
          peers s x ++ [b] := by simp [peers, AMap.get?_insert_ne _ _ hxb]
      rw [e, List.count_append]
      by_cases hy : y = b
      · simp [hy]
      · have h' : ¬ b = y := fun h => hy h.symm
        simp [hy, hxb, h']
    · have e : peers { s with accts := (s.accts.insert a (peers s a ++ [b])).insert b (peers s b ++ [a]) } x =
          peers s x := by simp [peers, AMap.get?_insert_ne _ _ hxb, AMap.get?_insert_ne _ _ hxa]
      rw [e]; simp [hxa, hxb]

theorem inv_register (s : Store) (a b : Nat) (h : Inv s) : Inv (register s a b).1 := by
  unfold register
  by_cases hc : (s.accts.contains a && s.accts.contains b) = true
  · rw [if_pos hc]
    by_cases hab : a = b
    · rw [if_pos hab]; exact ⟨h.bal, h.exist, h.pex⟩
    · rw [if_neg hab]
      have hc' : s.accts.contains a = true ∧ s.accts.contains b = true := by simpa using hc
      have hcon : ∀ x, s.accts.contains x = true →
          ((s.accts.insert a (peers s a ++ [b])).insert b (peers s b ++ [a])).contains x = true := by
        intro x hx
        rw [contains_insert, contains_insert, hx]; simp
      refine ⟨fun x y => ?_, fun x y hp => ?_, fun x y hp => ?_⟩
      · simp only [register_cnt s a b hab]
        have hb := h.bal x y
        have hp1 : pend { s with accts := (s.accts.insert a (peers s a ++ [b])).insert b (peers s b ++ [a]) } y x =
          pend s y x := rfl
        have hp2 : pend { s with accts := (s.accts.insert a (peers s a ++ [b])).insert b (peers s b ++ [a]) } x y =
          pend s x y := rfl
        rw [hp1, hp2]
        have e : (if (x = a ∧ y = b) ∨ (x = b ∧ y = a) then 1 else 0) =
            (if (y = a ∧ x = b) ∨ (y = b ∧ x = a) then 1 else (0 : Nat)) := by
          have : ((x = a ∧ y = b) ∨ (x = b ∧ y = a)) ↔ ((y = a ∧ x = b) ∨ (y = b ∧ x = a)) := by
            constructor
            · rintro (⟨h1, h2⟩ | ⟨h1, h2⟩)
              · exact Or.inr ⟨h2, h1⟩
              · exact Or.inl ⟨h2, h1⟩
            · rintro (⟨h1, h2⟩ | ⟨h1, h2⟩)
              · exact Or.inr ⟨h2, h1⟩
              · exact Or.inl ⟨h2, h1⟩
          simp only [this]
        rw [e]; omega
      · rw [register_cnt s a b hab] at hp
        refine hcon y ?_
        by_cases hxy : (x = a ∧ y = b) ∨ (x = b ∧ y = a)
        · rcases hxy with ⟨-, rfl⟩ | ⟨-, rfl⟩
          · exact hc'.2
          · exact hc'.1
        · rw [if_neg hxy] at hp; exact h.exist x y hp
      · obtain ⟨h1, h2⟩ := h.pex x y hp
        exact ⟨hcon x h1, hcon y h2⟩
  · rw [if_neg hc]; exact h

theorem deregStart_ok (s : Store) (a b : Nat) (hc : (deregStart s a b).2 = .ok) :
    s.accts.contains a = true ∧ s.accts.contains b = true ∧ b ∈ peers s a ∧
    (deregStart s a b).1 = { (removePeer s a b).1 with pending := (b, a) :: s.pending } := by
  unfold deregStart at hc ⊢
  by_cases h1 : (s.accts.contains a && s.accts.contains b) = true
  · rw [if_pos h1] at hc ⊢
    have h1' : s.accts.contains a = true ∧ s.accts.contains b = true := by simpa using h1
    by_cases h2 : b ∈ peers s a
    · rw [removePeer_eq s a b h2] at hc ⊢
      exact ⟨h1'.1, h1'.2, h2, rfl⟩
    · rw [removePeer_no s a b h2] at hc; simp at hc
  · rw [if_neg h1] at hc; simp at hc

theorem deregStart_not_ok (s : Store) (a b : Nat) (hc : (deregStart s a b).2 ≠ .ok) : (deregStart s a b).1 = s := by
  unfold deregStart at hc ⊢
  by_cases h1 : (s.accts.contains a && s.accts.contains b) = true
  · rw [if_pos h1] at hc ⊢
    by_cases h2 : b ∈ peers s a
    · rw [removePeer_eq s a b h2] at hc; simp at hc
    · rw [removePeer_no s a b h2]; simp
  · rw [if_neg h1]

theorem inv_deregStart (s : Store) (a b : Nat) (h : Inv s) : Inv (deregStart s a b).1 := by
  by_cases hok : (deregStart s a b).2 = .ok
  · obtain ⟨ha, hb, hm, e⟩ := deregStart_ok s a b hok
    rw [e]
    have hcnt : ∀ x y, cnt { (removePeer s a b).1 with pending := (b, a) :: s.pending } x y =
        if x = a ∧ y = b then cnt s x y - 1 else cnt s x y := fun x y => removePeer_cnt s a b x y
    have hpend : ∀ x y, pend { (removePeer s a b).1 with pending := (b, a) :: s.pending } x y =
        pend s x y + if x = b ∧ y = a then 1 else 0 := by
      intro x y
      unfold pend
      show List.count (x, y) ((b, a) :: s.pending) = _
      rw [List.count_cons]
      by_cases hxy : x = b ∧ y = a
      · simp [hxy]
      · rw [if_neg hxy]
        have : ¬ ((b, a) = (x, y)) := by
          rintro heq; exact hxy ⟨(Prod.mk.inj heq).1.symm, (Prod.mk.inj heq).2.symm⟩
        simp [this]
    have hpos : 0 < cnt s a b := List.count_pos_iff.2 hm
    refine ⟨fun x y => ?_, fun x y hp => ?_, fun x y hp => ?_⟩
    · rw [hcnt, hcnt, hpend, hpend]
      have hb := h.bal x y
      have e1 : (y = b ∧ x = a) ↔ (x = a ∧ y = b) := And.comm
      have e2 : (y = a ∧ x = b) ↔ (x = b ∧ y = a) := And.comm
      simp only [e1, e2]
      by_cases h1 : x = a ∧ y = b
      · by_cases h2 : x = b ∧ y = a
        · rw [if_pos h1, if_pos h1, if_pos h2, if_pos h2]
          obtain ⟨rfl, rfl⟩ := h1
          obtain ⟨rfl, -⟩ := h2
          rfl
        · rw [if_pos h1, if_pos h1, if_neg h2, if_neg h2]
          obtain ⟨rfl, rfl⟩ := h1
          omega
      · by_cases h2 : x = b ∧ y = a
        · rw [if_neg h1, if_neg h1, if_pos h2, if_pos h2]
          obtain ⟨rfl, rfl⟩ := h2
          omega
        · rw [if_neg h1, if_neg h1, if_neg h2, if_neg h2]; omega
    · show (removePeer s a b).1.accts.contains y = true
      rw [removePeer_contains]
      rw [hcnt] at hp
      refine h.exist x y ?_
      by_cases h1 : x = a ∧ y = b
      · rw [if_pos h1] at hp; omega
      · rw [if_neg h1] at hp; exact hp
    · show (removePeer s a b).1.accts.contains x = true ∧ (removePeer s a b).1.accts.contains y = true
      rw [removePeer_contains, removePeer_contains]
      rw [hpend] at hp
      by_cases h1 : x = b ∧ y = a
      · obtain ⟨rfl, rfl⟩ := h1; exact ⟨hb, ha⟩
      · rw [if_neg h1] at hp; exact h.pex x y (by omega)
  · rw [deregStart_not_ok s a b hok]; exact h

theorem deregFinish_cnt (s : Store) (b a : Nat) (hm : (b, a) ∈ s.pending) (x y : Nat) :
    cnt (deregFinish s b a).1 x y = if x = b ∧ y = a then cnt s x y - 1 else cnt s x y := by
  unfold deregFinish
  rw [if_pos hm]
  exact removePeer_cnt _ b a x y

theorem deregFinish_pending (s : Store) (b a : Nat) (hm : (b, a) ∈ s.pending) :
    (deregFinish s b a).1.pending = s.pending.erase (b, a) := by
  unfold deregFinish
  rw [if_pos hm]
  exact removePeer_pending _ b a

theorem inv_deregFinish (s : Store) (b a : Nat) (h : Inv s) (hno : (b, a) ∈ s.pending → (a, b) ∉ s.pending) :
    Inv (deregFinish s b a).1 := by
  by_cases hm : (b, a) ∈ s.pending
  · have hno := hno hm
    have hpend : ∀ x y, pend (deregFinish s b a).1 x y = pend s x y - if x = b ∧ y = a then 1 else 0 := by
      intro x y
      unfold pend
      rw [deregFinish_pending s b a hm, List.count_erase]
      by_cases hxy : x = b ∧ y = a
      · simp [hxy]
      · rw [if_neg hxy]
        have : ¬ ((b, a) = (x, y)) := by
          rintro heq; exact hxy ⟨(Prod.mk.inj heq).1.symm, (Prod.mk.inj heq).2.symm⟩
        simp [this]
    have hp1 : 0 < pend s b a := List.count_pos_iff.2 hm
    have hp2 : pend s a b = 0 := List.count_eq_zero.2 hno
    have hab : a ≠ b := by rintro rfl; exact hno hm
    have hcpos : 0 < cnt s b a := by have := h.bal a b; omega
    have hcon : ∀ x, (deregFinish s b a).1.accts.contains x = s.accts.contains x := by
      intro x
      unfold deregFinish
      rw [if_pos hm]
      exact removePeer_contains _ b a x
    refine ⟨fun x y => ?_, fun x y hp => ?_, fun x y hp => ?_⟩
    · rw [deregFinish_cnt s b a hm, deregFinish_cnt s b a hm, hpend, hpend]
      have hb := h.bal x y
      have e1 : (y = b ∧ x = a) ↔ (x = a ∧ y = b) := And.comm
      simp only [e1]
      by_cases h1 : x = b ∧ y = a
      · have h2 : ¬ (x = a ∧ y = b) := by rintro ⟨rfl, -⟩; exact hab h1.1
        rw [if_pos h1, if_pos h1, if_neg h2, if_neg h2]
        obtain ⟨rfl, rfl⟩ := h1
        omega
      · by_cases h2 : x = a ∧ y = b
        · rw [if_neg h1, if_neg h1, if_pos h2, if_pos h2]
          obtain ⟨rfl, rfl⟩ := h2
          omega
        · rw [if_neg h1, if_neg h1, if_neg h2, if_neg h2]; omega
    · rw [hcon]
      rw [deregFinish_cnt s b a hm] at hp
      refine h.exist x y ?_
      by_cases h1 : x = b ∧ y = a
      · rw [if_pos h1] at hp; omega
      · rw [if_neg h1] at hp; exact hp
    · rw [hcon, hcon]
      rw [hpend] at hp
      exact h.pex x y (by omega)
  · unfold deregFinish; rw [if_neg hm]; exact h

theorem delete_eq (s : Store) (c : Nat) : delete s c =
    if s.pending ≠ [] then (s, .blocked) else if s.accts.contains c then
      ((peers s c).foldl (delStep c) { s with accts := s.accts.erase c }, .ok) else (s, .notFound) := rfl

theorem erase_cnt (s : Store) (c x y : Nat) :
    cnt { s with accts := s.accts.erase c } x y = if x = c then 0 else cnt s x y := by
  unfold cnt peers
  simp only [AMap.get?_erase]
  by_cases hx : x = c <;> simp [hx]

theorem inv_delete (s : Store) (c : Nat) (h : Inv s) (hself : ∀ a, cnt s a a = 0) : Inv (delete s c).1 := by
  rw [delete_eq]
  by_cases hp : s.pending = []
  · rw [if_neg (by simp [hp])]
    by_cases hc : s.accts.contains c = true
    · rw [if_pos hc]
      have hpz : ∀ x y, pend s x y = 0 := by intro x y; simp [pend, hp]
      have hcnt : ∀ x y, cnt ((peers s c).foldl (delStep c) { s with accts := s.accts.erase c }) x y =
          if x = c ∨ y = c then 0 else cnt s x y := by
        intro x y
        rw [delLoop_cnt, erase_cnt]
        have hb := h.bal x c
        rw [hpz, hpz] at hb
        have hb2 : cnt s x c = (peers s c).count x := by simpa [cnt] using hb
        by_cases hy : y = c
        · subst hy
          by_cases hx : x = y
          · simp [hx]
          · simp [hx, hb2]
        · by_cases hx : x = c <;> simp [hx, hy]
      obtain ⟨hcon, hpn⟩ := delLoop_other c (peers s c) { s with accts := s.accts.erase c }
      have hpend : ∀ x y, pend ((peers s c).foldl (delStep c) { s with accts := s.accts.erase c }) x y = 0 := by
        intro x y; unfold pend; rw [hpn]; exact hpz x y
      refine ⟨fun x y => ?_, fun x y hq => ?_, fun x y hq => ?_⟩
      · simp only [hcnt, hpend]
        have hb := h.bal x y
        rw [hpz, hpz] at hb
        by_cases hxy : x = c ∨ y = c
        · rw [if_pos hxy, if_pos hxy.symm]
        · rw [if_neg hxy, if_neg (fun h => hxy h.symm)]; omega
      · simp only [hcnt] at hq
        by_cases hxy : x = c ∨ y = c
        · rw [if_pos hxy] at hq; omega
        · rw [if_neg hxy] at hq
          have := h.exist x y hq
          rw [hcon]
          show (s.accts.erase c).contains y = true
          unfold AMap.contains at this ⊢
          rw [AMap.get?_erase_ne _ (fun h => hxy (Or.inr h))]; exact this
      · rw [hpend] at hq; omega
    · rw [if_neg hc]; exact h
  · rw [if_pos hp]; exact h

theorem self_zero (ops : List Op) : ∀ a, cnt (after ops) a a = 0 ∧ ∀ b, (a, b) ∈ (after ops).pending → a ≠ b := by
  induction ops using List.reverseRecOn with
  | nil => intro a; exact ⟨rfl, fun b hb => by simp [after, run, empty] at hb⟩
  | append_singleton ops op ih =>
    intro a
    rw [after_snoc]
    generalize hS : after ops = s at ih
    have ih1 : ∀ a, cnt s a a = 0 := fun a => (ih a).1
    have ih2 : ∀ a b, (a, b) ∈ s.pending → a ≠ b := fun a b => (ih a).2 b
    have start : ∀ x y, cnt (deregStart s x y).1 a a = 0 ∧ ∀ b, (a, b) ∈ (deregStart s x y).1.pending → a ≠ b := by
      intro x y
      by_cases hok : (deregStart s x y).2 = .ok
      · obtain ⟨-, -, hm, e⟩ := deregStart_ok s x y hok
        rw [e]
        refine ⟨?_, ?_⟩
        · show cnt (removePeer s x y).1 a a = 0
          rw [removePeer_cnt]; have := ih1 a; split <;> omega
        · intro b hb
          rcases List.mem_cons.1 hb with hb | hb
          · cases hb
            rintro rfl
            have := ih1 a
            exact absurd (List.count_pos_iff.2 hm) (by unfold cnt at this; omega)
          · exact ih2 a b hb
      · rw [deregStart_not_ok s x y hok]; exact ⟨ih1 a, ih2 a⟩
    have finish : ∀ (t : Store) x y, (cnt t a a = 0 ∧ ∀ b, (a, b) ∈ t.pending → a ≠ b) →
        cnt (deregFinish t x y).1 a a = 0 ∧ ∀ b, (a, b) ∈ (deregFinish t x y).1.pending → a ≠ b := by
      intro t x y ht
      by_cases hm : (x, y) ∈ t.pending
      · refine ⟨?_, ?_⟩
        · rw [deregFinish_cnt t x y hm]; have := ht.1; split <;> omega
        · rw [deregFinish_pending t x y hm]
          intro b hb; exact ht.2 b (List.mem_of_mem_erase hb)
      · unfold deregFinish; rw [if_neg hm]; exact ht
    unfold step
    split
    · exact ⟨ih1 a, ih2 a⟩
    · cases op with
      | create c =>
        simp only [create]
        split
        · exact ⟨ih1 a, ih2 a⟩
        · refine ⟨?_, ih2 a⟩
          unfold cnt peers
          by_cases hx : a = c
          · subst hx; simp
          · rw [show ({ s with accts := s.accts.insert c [] } : Store).accts.get? a = s.accts.get? a from
              AMap.get?_insert_ne _ _ hx]
            exact ih1 a
      | register x y =>
        simp only [register]
        split
        · split
          · exact ⟨ih1 a, ih2 a⟩
          · rename_i hxy
            refine ⟨?_, ih2 a⟩
            rw [register_cnt s x y hxy, ih1 a, if_neg]
            rintro (⟨rfl, rfl⟩ | ⟨rfl, rfl⟩) <;> exact hxy rfl
        · exact ⟨ih1 a, ih2 a⟩
      | deregister x y =>
        simp only [deregister]
        split
        · exact finish _ _ _ (start x y)
        · exact start x y
      | deregStart x y => exact start x y
      | deregFinish x y => exact finish s x y ⟨ih1 a, ih2 a⟩
      | delete c =>
        simp only [delete_eq]
        split
        · exact ⟨ih1 a, ih2 a⟩
        · split
          · refine ⟨?_, ?_⟩
            · rw [delLoop_cnt, erase_cnt]; have := ih1 a; split <;> (try split) <;> omega
            · rw [(delLoop_other c (peers s c) _).2]; exact ih2 a
          · exact ⟨ih1 a, ih2 a⟩

theorem inv_step (s : Store) (op : Op) (h : Inv s) (hself : ∀ a, cnt s a a = 0)
    (hno : ∀ b a, (op = .deregFinish b a ∨ op = .deregister a b) → (a, b) ∉ s.pending) : Inv (step s op).1 := by
  unfold step
  split
  · exact h
  · cases op with
    | create c => exact inv_create s c h
    | register a b => exact inv_register s a b h
    | deregStart a b => exact inv_deregStart s a b h
    | deregFinish b a => exact inv_deregFinish s b a h (fun _ => hno b a (Or.inl rfl))
    | delete c => exact inv_delete s c h hself
    | deregister a b =>
      simp only [deregister]
      split
      · rename_i hok
        refine inv_deregFinish _ b a (inv_deregStart s a b h) ?_
        intro _
        obtain ⟨-, -, hm, e⟩ := deregStart_ok s a b hok
        rw [e]
        intro hb
        rcases List.mem_cons.1 hb with hb | hb
        · cases hb
          have := hself a
          exact absurd (List.count_pos_iff.2 hm) (by unfold cnt at this; omega)
        · exact hno b a (Or.inr rfl) hb
      · exact inv_deregStart s a b h

/-- Undisturbed operations leave nothing pending. -/
theorem serial_pending (ops : List Op) (hs : ∀ op ∈ ops, ∀ a b, op ≠ .deregStart a b ∧ op ≠ .deregFinish a b) :
    (after ops).pending = [] := by
  induction ops using List.reverseRecOn with
  | nil => rfl
  | append_singleton ops op ih =>
    rw [after_snoc]
    have ih := ih (fun o ho => hs o (List.mem_append_left _ ho))
    have hop := hs op (by simp)
    generalize after ops = s at ih ⊢
    unfold step
    split
    · exact ih
    · cases op with
      | create c => simp only [create]; split <;> exact ih
      | register a b => simp only [register]; split <;> (try split) <;> exact ih
      | deregStart a b => exact absurd rfl (hop a b).1
      | deregFinish a b => exact absurd rfl (hop a b).2
      | delete c =>
        simp only [delete_eq]
        split
        · exact ih
        · split
          · rw [(delLoop_other c (peers s c) _).2]; exact ih
          · exact ih
      | deregister a b =>
        simp only [deregister]
        split
        · rename_i hok
          obtain ⟨-, -, -, e⟩ := deregStart_ok s a b hok
          have hp : (deregStart s a b).1.pending = [(b, a)] := by rw [e, ih]
          rw [deregFinish_pending _ _ _ (by rw [hp]; simp), hp]; simp
        · rename_i hok
          rw [deregStart_not_ok s a b hok]; exact ih

theorem inv_serial (ops : List Op) (hs : ∀ op ∈ ops, ∀ a b, op ≠ .deregStart a b ∧ op ≠ .deregFinish a b) :
    Inv (after ops) := by
  induction ops using List.reverseRecOn with
  | nil => exact inv_empty
  | append_singleton ops op ih =>
    have hs' : ∀ op ∈ ops, ∀ a b, op ≠ .deregStart a b ∧ op ≠ .deregFinish a b :=
      fun o ho => hs o (List.mem_append_left _ ho)
    rw [after_snoc]
    refine inv_step _ op (ih hs') (fun a => (self_zero ops a).1) (fun b a _ => ?_)
    rw [serial_pending ops hs']; simp

theorem bal_mem {s : Store} (h : Inv s) (hp : s.pending = []) (a b : Nat) : b ∈ peers s a ↔ a ∈ peers s b := by
  have hb := h.bal a b
  have h0 : ∀ x y, pend s x y = 0 := by intro x y; simp [pend, hp]
  rw [h0, h0] at hb
  unfold cnt at hb
  rw [← List.count_pos_iff, ← List.count_pos_iff]; omega

/-- Effect of an undisturbed successful deregistration. -/
theorem deregister_ok (s : Store) (a b : Nat) (hs : cnt s a a = 0) (hok : (deregister s a b).2 = .ok) (x y : Nat) :
    cnt (deregister s a b).1 x y = cnt s x y - if (x = a ∧ y = b) ∨ (x = b ∧ y = a) then 1 else 0 := by
  unfold deregister at hok ⊢
  by_cases h1 : (deregStart s a b).2 = .ok
  · simp only [h1, if_true] at hok ⊢
    obtain ⟨-, -, hm, e⟩ := deregStart_ok s a b h1
    have hab : a ≠ b := by
      rintro rfl
      exact absurd (List.count_pos_iff.2 hm) (by unfold cnt at hs; omega)
    have hmem : (b, a) ∈ (deregStart s a b).1.pending := by rw [e]; exact List.mem_cons_self ..
    rw [deregFinish_cnt _ b a hmem, e]
    have e2 : cnt { (removePeer s a b).1 with pending := (b, a) :: s.pending } x y =
      if x = a ∧ y = b then cnt s x y - 1 else cnt s x y := removePeer_cnt s a b x y
    rw [e2]
    by_cases h2 : x = a ∧ y = b
    · have h3 : ¬ (x = b ∧ y = a) := by rintro ⟨h, -⟩; exact hab (h2.1.symm.trans h)
      rw [if_pos h2, if_neg h3, if_pos (Or.inl h2)]
    · by_cases h3 : x = b ∧ y = a
      · rw [if_neg h2, if_pos h3, if_pos (Or.inr h3)]
      · rw [if_neg h2, if_neg h3, if_neg (by rintro (h | h); exacts [h2 h, h3 h])]; omega
  · rw [if_neg h1] at hok; exact absurd hok h1

end Verif.Mutuals

import Verif.Ordered.Model
import Verif.Ordered.Spec
import Mathlib.Data.List.Perm.Subperm
import Mathlib.Data.List.Range

namespace Verif.Ordered
open Verif
variable {T : Type}

theorem latest_append_self (as : List (Nat × T)) (i : Nat) (p : T) :
    latestPayload (as ++ [(i, p)]) i = some p := by
  simp [latestPayload, List.filter_append]

theorem latest_append_ne (as : List (Nat × T)) {i j : Nat} (p : T) (h : j ≠ i) :
    latestPayload (as ++ [(i, p)]) j = latestPayload as j := by
  have : ¬ i = j := fun h' => h h'.symm
  simp [latestPayload, List.filter_append, this]

theorem latest_none_iff (as : List (Nat × T)) (i : Nat) : latestPayload as i = none ↔ i ∉ ids as := by
  simp only [latestPayload, Option.map_eq_none_iff, List.getLast?_eq_none_iff, List.filter_eq_nil_iff,
    beq_iff_eq, ids, List.mem_map, Prod.exists, exists_and_right, exists_eq_right, not_exists]
  constructor
  · intro h x hx; exact h (i, x) hx rfl
  · rintro h ⟨a, b⟩ hab rfl; exact h b hab

theorem latest_mem {as : List (Nat × T)} {i : Nat} {p : T} (h : latestPayload as i = some p) : (i, p) ∈ as := by
  simp only [latestPayload, Option.map_eq_some_iff] at h
  obtain ⟨⟨a, b⟩, h1, rfl⟩ := h
  have := List.mem_of_getLast? h1
  simp only [List.mem_filter, beq_iff_eq] at this
  rw [← this.2]; exact this.1

/-- State after `k` deliveries, given the arrivals so far; the entry for `k` itself may still be buffered. -/
structure Weak (as : List (Nat × T)) (k : Nat) (c : Chan T) : Prop where
  last : c.last = if k = 0 then none else some (k - 1)
  outLen : c.out.length = k
  outMem : ∀ j (h : j < c.out.length), (j, c.out[j]) ∈ as
  delivered : ∀ i < k, c.map.get? i = none
  pending : ∀ i, k ≤ i → c.map.get? i = latestPayload as i
  arrived : ∀ i < k, i ∈ ids as

theorem Weak.bound {as : List (Nat × T)} {k : Nat} {c : Chan T} (h : Weak as k c) : k ≤ as.length := by
  have hs : List.range k ⊆ ids as := fun i hi => h.arrived i (List.mem_range.1 hi)
  have := (List.nodup_range.subperm hs).length_le
  simpa [ids] using this

theorem wsucc_eq {n : Nat} (h : n + 1 < 2 ^ 64) : wsucc n = n + 1 := Nat.mod_eq_of_lt h

theorem weak_send {as : List (Nat × T)} {k : Nat} {c : Chan T} {p : T}
    (hlast : c.out.length = k) (hmem : ∀ j (h : j < c.out.length), (j, c.out[j]) ∈ as)
    (hdel : ∀ i < k + 1, c.map.get? i = none)
    (hpend : ∀ i, k + 1 ≤ i → c.map.get? i = latestPayload as i)
    (harr : ∀ i < k, i ∈ ids as) (hp : (k, p) ∈ as) :
    Weak as (k + 1) (sendUnconditional c k p) := by
  constructor
  · simp [sendUnconditional]
  · simp [sendUnconditional, hlast]
  · intro j hj
    simp only [sendUnconditional, List.length_append, List.length_singleton] at hj ⊢
    by_cases hjk : j < c.out.length
    · rw [List.getElem_append_left hjk]; exact hmem j hjk
    · have hje : j = k := by omega
      subst hje
      rw [List.getElem_append_right (by omega)]
      simpa [hlast] using hp
  · exact hdel
  · exact hpend
  · intro i hi
    by_cases hik : i < k
    · exact harr i hik
    · have : i = k := by omega
      subst this
      exact List.mem_map_of_mem (f := Prod.fst) hp

theorem scan_spec (as : List (Nat × T)) (hlen : as.length < 2 ^ 64) (fuel : Nat) (k : Nat) (c : Chan T)
    (hw : Weak as k c) (hf : c.map.length ≤ fuel) :
    ∃ k', k ≤ k' ∧ Weak as k' (scanSend fuel c k) ∧ latestPayload as k' = none ∧
      (∀ j < k, (scanSend fuel c k).out[j]? = c.out[j]?) ∧
      (∀ j, k ≤ j → j < k' → (scanSend fuel c k).out[j]? = latestPayload as j) := by
  induction fuel generalizing k c with
  | zero =>
    have hm : c.map = [] := List.eq_nil_of_length_eq_zero (by omega)
    refine ⟨k, le_refl k, hw, ?_, fun _ _ => rfl, fun j h1 h2 => by omega⟩
    rw [← hw.pending k (le_refl k), hm]; rfl
  | succ fuel ih =>
    unfold scanSend
    cases hg : c.map.get? k with
    | none =>
      exact ⟨k, le_refl k, hw, by rw [← hw.pending k (le_refl k), hg], fun _ _ => rfl,
        fun j h1 h2 => by omega⟩
    | some p =>
      have hb := hw.bound
      have hlat : latestPayload as k = some p := by rw [← hw.pending k (le_refl k), hg]
      have hw' : Weak as (k + 1) (sendUnconditional { c with map := c.map.erase k } k p) := by
        refine weak_send (c := { c with map := c.map.erase k }) hw.outLen hw.outMem ?_ ?_ hw.arrived
          (latest_mem hlat)
        · intro i hi
          by_cases hik : i = k
          · subst hik; simp
          · simp only [AMap.get?_erase_ne _ hik]; exact hw.delivered i (by omega)
        · intro i hi
          simp only [AMap.get?_erase_ne _ (show i ≠ k by omega)]
          exact hw.pending i (by omega)
      have hb' := hw'.bound
      have hf' : (sendUnconditional { c with map := c.map.erase k } k p).map.length ≤ fuel := by
        have := AMap.length_erase_lt (m := c.map) (x := k) (by simp [hg])
        simp only [sendUnconditional]; omega
      obtain ⟨k', h1, h2, h3, h4, h5⟩ := ih (k + 1) _ hw' hf'
      simp only [wsucc_eq (show k + 1 < 2 ^ 64 by omega)]
      refine ⟨k', by omega, h2, h3, ?_, ?_⟩
      · intro j hj
        rw [h4 j (by omega)]
        simp only [sendUnconditional]
        rw [List.getElem?_append_left (by rw [hw.outLen]; exact hj)]
      · intro j hj1 hj2
        by_cases hjk : j = k
        · subst hjk
          rw [h4 j (by omega), hlat]
          simp only [sendUnconditional]
          rw [List.getElem?_append_right (by rw [hw.outLen]), hw.outLen]
          simp
        · exact h5 j (by omega) hj2

/-- Full state invariant after the arrivals `as`. -/
def Inv (as : List (Nat × T)) (k : Nat) (c : Chan T) : Prop := Weak as k c ∧ latestPayload as k = none

theorem inv_new : Inv ([] : List (Nat × T)) 0 new := by
  refine ⟨⟨rfl, rfl, ?_, ?_, ?_, ?_⟩, rfl⟩
  · intro j h; simp [new] at h
  · intro i h; omega
  · intro i _; rfl
  · intro i h; omega

theorem inv_step (as : List (Nat × T)) (k : Nat) (c : Chan T) (h : Inv as k c) (id : Nat) (p : T)
    (hlen : as.length + 1 < 2 ^ 64) :
    ∃ k', k ≤ k' ∧ Inv (as ++ [(id, p)]) k' (onPacketReceived c id p) ∧
      (∀ j < k, (onPacketReceived c id p).out[j]? = c.out[j]?) ∧
      (∀ j, k ≤ j → j < k' →
        (onPacketReceived c id p).out[j]? = latestPayload (as ++ [(id, p)]) j) := by
  obtain ⟨hw, hn⟩ := h
  have hb := hw.bound
  have hnext : nextExpected c = k := by
    unfold nextExpected
    rw [hw.last]
    by_cases hk : k = 0
    · simp [hk]
    · simp only [hk, if_false]
      rw [wsucc_eq (by omega)]; omega
  unfold onPacketReceived
  rw [hnext]
  by_cases hid : k = id
  · subst hid
    simp only [if_true]
    have hw' : Weak (as ++ [(k, p)]) (k + 1) (sendUnconditional c k p) := by
      apply weak_send hw.outLen
      · intro j hj; exact List.mem_append_left _ (hw.outMem j hj)
      · intro i hi
        by_cases hik : i = k
        · subst hik; rw [hw.pending i (le_refl i), hn]
        · exact hw.delivered i (by omega)
      · intro i hi
        rw [latest_append_ne _ _ (show i ≠ k by omega)]
        exact hw.pending i (by omega)
      · intro i hi
        have := hw.arrived i hi
        simp only [ids, List.map_append, List.mem_append] at this ⊢; exact Or.inl this
      · simp
    have hlat : latestPayload (as ++ [(k, p)]) k = some p := latest_append_self ..
    have hout : (sendUnconditional c k p).out[k]? = some p := by
      simp only [sendUnconditional]
      rw [List.getElem?_append_right (by rw [hw.outLen]), hw.outLen]; simp
    have hold : ∀ j < k, (sendUnconditional c k p).out[j]? = c.out[j]? := by
      intro j hj
      simp only [sendUnconditional]
      rw [List.getElem?_append_left (by rw [hw.outLen]; exact hj)]
    unfold sendThenScan
    by_cases hm : (sendUnconditional c k p).map = []
    · simp only [hm, ne_eq, not_true_eq_false, if_false]
      refine ⟨k + 1, by omega, ⟨hw', ?_⟩, hold, ?_⟩
      · rw [← hw'.pending (k + 1) (le_refl _), hm]; rfl
      · intro j h1 h2
        have : j = k := by omega
        subst this; rw [hout, hlat]
    · simp only [hm, ne_eq, not_false_eq_true, if_true]
      rw [wsucc_eq (show k + 1 < 2 ^ 64 by omega)]
      obtain ⟨k', h1, h2, h3, h4, h5⟩ := scan_spec (as ++ [(k, p)]) (by simpa using hlen)
        (sendUnconditional c k p).map.length (k + 1) _ hw' (le_refl _)
      refine ⟨k', by omega, ⟨h2, h3⟩, ?_, ?_⟩
      · intro j hj; rw [h4 j (by omega), hold j hj]
      · intro j hj1 hj2
        by_cases hjk : j = k
        · subst hjk; rw [h4 j (by omega), hout, hlat]
        · exact h5 j (by omega) hj2
  · simp only [hid, if_false]
    have harr : ∀ i < k, i ∈ ids (as ++ [(id, p)]) := by
      intro i hi
      have := hw.arrived i hi
      simp only [ids, List.map_append, List.mem_append] at this ⊢; exact Or.inl this
    by_cases hdup : isAlreadyDelivered c.last id = true
    · have hlt : id < k := by
        rw [hw.last] at hdup
        by_cases hk : k = 0
        · simp [hk, isAlreadyDelivered] at hdup
        · simp [hk, isAlreadyDelivered] at hdup; omega
      rw [if_pos hdup]
      refine ⟨k, le_refl k, ⟨⟨hw.last, hw.outLen, ?_, hw.delivered, ?_, harr⟩, ?_⟩, fun _ _ => rfl,
        fun j h1 h2 => by omega⟩
      · intro j hj; exact List.mem_append_left _ (hw.outMem j hj)
      · intro i hi; rw [latest_append_ne _ _ (show i ≠ id by omega)]; exact hw.pending i hi
      · rw [latest_append_ne _ _ hid]; exact hn
    · have hgt : k < id := by
        rw [hw.last] at hdup
        by_cases hk : k = 0
        · omega
        · simp [hk, isAlreadyDelivered] at hdup; omega
      rw [if_neg hdup]
      refine ⟨k, le_refl k, ⟨⟨hw.last, hw.outLen, ?_, ?_, ?_, harr⟩, ?_⟩, fun _ _ => rfl,
        fun j h1 h2 => by omega⟩
      · intro j hj; exact List.mem_append_left _ (hw.outMem j hj)
      · intro i hi
        show (c.map.insert id p).get? i = none
        rw [AMap.get?_insert_ne _ _ (show i ≠ id by omega)]; exact hw.delivered i hi
      · intro i hi
        show (c.map.insert id p).get? i = _
        by_cases hii : i = id
        · subst hii; rw [AMap.get?_insert_self, latest_append_self]
        · rw [AMap.get?_insert_ne _ _ hii, latest_append_ne _ _ hii]; exact hw.pending i hi
      · rw [latest_append_ne _ _ hid]; exact hn

theorem run_append (c : Chan T) (as bs : List (Nat × T)) : run c (as ++ bs) = run (run c as) bs := by
  induction as generalizing c with
  | nil => rfl
  | cons a as ih => simp [run, ih]

theorem inv_run (as : List (Nat × T)) (hlen : as.length < 2 ^ 64) : ∃ k, Inv as k (run new as) := by
  induction as using List.reverseRecOn with
  | nil => exact ⟨0, inv_new⟩
  | append_singleton as a ih =>
    obtain ⟨k, hk⟩ := ih (by simp at hlen; omega)
    obtain ⟨k', -, h2, -⟩ := inv_step as k _ hk a.1 a.2 (by simpa using hlen)
    exact ⟨k', by rw [run_append]; exact h2⟩

end Verif.Ordered

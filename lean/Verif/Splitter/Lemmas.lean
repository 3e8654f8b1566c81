import Verif.Splitter.Model
import Mathlib.Tactic.Ring
/-
Lemmas about cutting into chunks, splicing, and counting distinct packets; and the receiver fed with the packets of one group.
-/
namespace Verif.Splitter
open Verif

theorem lt_divCeil {a b j : Nat} (hb : 0 < b) : j < divCeil a b ↔ j * b < a := by
  unfold divCeil
  rw [Nat.lt_iff_add_one_le, Nat.le_div_iff_mul_le hb, Nat.add_mul]
  omega

theorem setFn_same {α : Type} (f : Nat → α) (k : Nat) (v : α) : setFn f k v k = v := by simp [setFn]

theorem setFn_ne {α : Type} {f : Nat → α} {k n : Nat} {v : α} (h : n ≠ k) : setFn f k v n = f n := by simp [setFn, h]

theorem length_splice {buf d : Bytes} {a : Nat} (h : a + d.length ≤ buf.length) :
    (splice buf a d).length = buf.length := by
  simp [splice]; omega

theorem getElem?_splice {buf d : Bytes} {a : Nat} (h : a + d.length ≤ buf.length) (p : Nat) :
    (splice buf a d)[p]? = if a ≤ p ∧ p < a + d.length then d[p - a]? else buf[p]? := by
  unfold splice
  have ha : (buf.take a).length = a := by simp; omega
  split
  · next hp =>
    rw [List.getElem?_append_left (by simp; omega), List.getElem?_append_right (by omega), ha]
  · next hp =>
    by_cases h1 : p < a
    · rw [List.getElem?_append_left (by simp; omega), List.getElem?_append_left (by omega), List.getElem?_take, if_pos h1]
    · rw [List.getElem?_append_right (by simp; omega), List.getElem?_drop]
      congr 1
      simp only [List.length_append, ha]
      omega

/-! ### Sums over the packets that have arrived -/

/-- Sum of `a j` over the `j < k` with `f j`. -/
def tally (f : Nat → Bool) (a : Nat → Nat) : Nat → Nat
  | 0 => 0
  | k + 1 => tally f a k + if f k then a k else 0

theorem tally_congr {f g : Nat → Bool} {a : Nat → Nat} {k : Nat} (h : ∀ j < k, f j = g j) : tally f a k = tally g a k := by
  induction k with
  | zero => rfl
  | succ k ih => simp only [tally]; rw [ih fun j hj => h j (by omega), h k (by omega)]

theorem tally_set {f g : Nat → Bool} {a : Nat → Nat} {k j : Nat} (hj : j < k) (hf : f j = false) (hg : g j = true)
    (h : ∀ i, i ≠ j → g i = f i) : tally g a k = tally f a k + a j := by
  induction k with
  | zero => omega
  | succ k ih =>
    simp only [tally]
    by_cases hk : j = k
    · subst hk
      rw [hf, hg, tally_congr (f := g) (g := f) fun i hi => h i (by omega)]
      simp
    · rw [ih (by omega), h k (by omega)]
      omega

theorem tally_le (f : Nat → Bool) (k : Nat) : tally f (fun _ => 1) k ≤ k := by
  induction k with
  | zero => exact Nat.le_refl _
  | succ k ih => simp only [tally]; split <;> omega

theorem tally_one_eq {f : Nat → Bool} {k : Nat} : tally f (fun _ => 1) k = k ↔ ∀ j < k, f j = true := by
  induction k with
  | zero => simp [tally]
  | succ k ih =>
    have := tally_le f k
    simp only [tally]
    constructor
    · intro h j hj
      by_cases hf : f k = true
      · rw [if_pos hf] at h
        by_cases hjk : j = k
        · rw [hjk]; exact hf
        · exact ih.1 (by omega) j (by omega)
      · rw [if_neg hf] at h; omega
    · intro h
      rw [if_pos (h k (by omega)), ih.2 fun j hj => h j (by omega)]

theorem tally_all {f : Nat → Bool} {a : Nat → Nat} {k : Nat} (h : ∀ j < k, f j = true) :
    tally f a k = tally (fun _ => true) a k := tally_congr h

/-- Chunk `j` of size `m`. -/
def chunk (m : Nat) (l : Bytes) (j : Nat) : Bytes := (l.drop (j * m)).take m

theorem length_chunk (m : Nat) (l : Bytes) (j : Nat) : (chunk m l j).length = min m (l.length - j * m) := by
  simp [chunk]

theorem getElem?_chunk {m : Nat} {l : Bytes} {j q : Nat} (h : q < m) : (chunk m l j)[q]? = l[j * m + q]? := by
  rw [chunk, List.getElem?_take, if_pos h, List.getElem?_drop]

theorem tally_chunks (m : Nat) (l : Bytes) (k : Nat) :
    tally (fun _ => true) (fun j => (chunk m l j).length) k = min (k * m) l.length := by
  induction k with
  | zero => simp [tally]
  | succ k ih =>
    simp only [tally, if_true]
    rw [ih, length_chunk, Nat.add_mul]
    omega

theorem tally_chunks_all {m : Nat} (hm : 0 < m) (l : Bytes) :
    tally (fun _ => true) (fun j => (chunk m l j).length) (divCeil l.length m) = l.length := by
  rw [tally_chunks]
  have : ¬ divCeil l.length m * m < l.length := fun h => absurd ((lt_divCeil hm).2 h) (Nat.lt_irrefl _)
  omega

/-! ### A group and the packets cut from it -/

/-- What the receiver is told (`c`) fits the ciphertexts `ct i` (`i` below the number of waves) and the waves of `plain`. -/
structure Fits (c : Cfg) (w : Nat) (dec : Bytes → Option Bytes) (ct : Nat → Bytes) (plain : Bytes) : Prop where
  wpos : 0 < w
  mpos : 0 < c.maxPayload
  ppos : 0 < c.maxPlain
  packets : c.maxPackets = w
  len : c.plainLen = plain.length
  nonempty : 0 < plain.length
  waves : c.waveCount = divCeil plain.length c.maxPlain
  full : ∀ i, i + 1 < c.waveCount → divCeil (ct i).length c.maxPayload = w
  inLast : divCeil (ct (c.waveCount - 1)).length c.maxPayload = c.packetsInLast
  inLast_le : c.packetsInLast ≤ w
  lastPos : 0 < (ct (c.waveCount - 1)).length
  lastSize : (c.packetsInLast - 1) * c.maxPayload + c.lastPayload = (ct (c.waveCount - 1)).length
  need : c.packetsNeeded = (c.waveCount - 1) * w + c.packetsInLast ∨
    ((c.waveCount - 1) * w + c.packetsInLast < c.packetsNeeded ∧
      (ct (c.waveCount - 1)).length = c.packetsInLast * c.maxPayload)
  dec : ∀ i < c.waveCount, dec (ct i) = some (chunk c.maxPlain plain i)

/-- Packet `j` of wave `i`. -/
def packetOf (c : Cfg) (w : Nat) (ct : Nat → Bytes) (i j : Nat) : Packet :=
  ⟨i * w + j, i, chunk c.maxPayload (ct i) j⟩

/-- Number of packets of wave `i`. -/
def kOf (c : Cfg) (ct : Nat → Bytes) (i : Nat) : Nat := divCeil (ct i).length c.maxPayload

/-- All packets of wave `i` are marked in `got`. -/
def doneB (c : Cfg) (w : Nat) (ct : Nat → Bytes) (got : Nat → Bool) (i : Nat) : Bool :=
  (List.range (kOf c ct i)).all fun j => got (i * w + j)

theorem doneB_iff {c : Cfg} {w : Nat} {ct : Nat → Bytes} {got : Nat → Bool} {i : Nat} :
    doneB c w ct got i = true ↔ ∀ j < kOf c ct i, got (i * w + j) = true := by
  simp [doneB]

structure Inv (c : Cfg) (w : Nat) (ct : Nat → Bytes) (plain : Bytes) (r : Recv) : Prop where
  cfg : r.cfg = c
  slabLen : r.slab.length = plain.length
  gone : ∀ i < c.waveCount, doneB c w ct r.got i = true → r.store i = none
  here : ∀ i < c.waveCount, doneB c w ct r.got i = false → ∃ v, r.store i = some v ∧ v.inWave = kOf c ct i ∧
    v.received = tally (fun j => r.got (i * w + j)) (fun _ => 1) (kOf c ct i) ∧
    v.written = tally (fun j => r.got (i * w + j)) (fun j => (chunk c.maxPayload (ct i) j).length) (kOf c ct i) ∧
    v.buf.length = (newWave c i).buf.length ∧
    ∀ p < (ct i).length, r.got (i * w + p / c.maxPayload) = true → v.buf[p]? = (ct i)[p]?
  out : ∀ i, c.waveCount ≤ i → r.store i = none
  slab : ∀ p < plain.length, doneB c w ct r.got (p / c.maxPlain) = true → r.slab[p]? = plain[p]?
  written : r.plainWritten = tally (doneB c w ct r.got) (fun i => (chunk c.maxPlain plain i).length) c.waveCount

section
variable {c : Cfg} {w : Nat} {dec : Bytes → Option Bytes} {ct : Nat → Bytes} {plain : Bytes}

theorem kOf_le (h : Fits c w dec ct plain) {i : Nat} (hi : i < c.waveCount) : kOf c ct i ≤ w := by
  by_cases h1 : i + 1 < c.waveCount
  · rw [kOf, h.full i h1]
  · rw [show i = c.waveCount - 1 by omega, kOf, h.inLast]; exact h.inLast_le

theorem kOf_pos (h : Fits c w dec ct plain) {i : Nat} (hi : i < c.waveCount) : 0 < kOf c ct i := by
  by_cases h1 : i + 1 < c.waveCount
  · rw [kOf, h.full i h1]; exact h.wpos
  · rw [show i = c.waveCount - 1 by omega, kOf, lt_divCeil h.mpos]; simpa using h.lastPos

theorem inWave_newWave (h : Fits c w dec ct plain) {i : Nat} (hi : i < c.waveCount) :
    (newWave c i).inWave = kOf c ct i := by
  unfold newWave
  split
  · next h1 => rw [h1, kOf, h.inLast]
  · rw [kOf, h.full i (by omega), h.packets]

theorem lt_of_kOf (h : Fits c w dec ct plain) {i j : Nat} : j < kOf c ct i ↔ j * c.maxPayload < (ct i).length :=
  lt_divCeil h.mpos

/-- Where a packet of the group goes. -/
theorem insertionRange_of (h : Fits c w dec ct plain) {i j : Nat} (hi : i < c.waveCount) (hj : j < kOf c ct i) :
    ∃ b, insertionRange c (i * w + j) (newWave c i).buf.length = some (j * c.maxPayload, b) ∧
      j * c.maxPayload + (chunk c.maxPayload (ct i) j).length ≤ b ∧ b ≤ (newWave c i).buf.length := by
  have hk := kOf_le h hi
  have hjM := (lt_of_kOf h).1 hj
  have hmod : (i * w + j) % c.maxPackets = j := by
    rw [h.packets, Nat.mul_comm, Nat.mul_add_mod, Nat.mod_eq_of_lt (by omega)]
  rw [length_chunk]
  have hlen : ((ct i).length) ≤ kOf c ct i * c.maxPayload := by
    have : ¬ kOf c ct i * c.maxPayload < (ct i).length := fun hh => absurd ((lt_of_kOf h).2 hh) (Nat.lt_irrefl _)
    omega
  by_cases hlast : i = c.waveCount - 1
  · have hbuf : (newWave c i).buf.length = (ct i).length := by
      unfold newWave; rw [if_pos hlast, hlast]; simpa using h.lastSize
    have hkl : kOf c ct i = c.packetsInLast := by rw [hlast]; exact h.inLast
    rw [hbuf]
    unfold insertionRange
    by_cases hs : i * w + j = c.packetsNeeded - 1
    · rw [if_pos hs]
      have hneed : c.packetsNeeded = (c.waveCount - 1) * w + c.packetsInLast := by
        rcases h.need with hn | hn
        · exact hn
        · rw [← hlast] at hn; omega
      have hjl : j = c.packetsInLast - 1 := by
        rw [hneed, ← hlast] at hs; omega
      have hsz := h.lastSize
      rw [← hlast, ← hjl] at hsz
      rw [if_neg (by omega)]
      exact ⟨(ct i).length, by rw [show (ct i).length - c.lastPayload = j * c.maxPayload by omega], by omega, by omega⟩
    · rw [if_neg hs]
      dsimp only
      rw [hmod, Nat.mul_comm c.maxPayload j]
      refine ⟨_, rfl, by omega, ?_⟩
      have hj1 : (j + 1) * c.maxPayload ≤ (ct i).length := by
        rcases h.need with hn | hn
        · rw [← hlast] at hn
          have hsz := h.lastSize
          rw [← hlast] at hsz
          have : (j + 1) * c.maxPayload ≤ (c.packetsInLast - 1) * c.maxPayload := Nat.mul_le_mul_right _ (by omega)
          omega
        · rw [← hlast] at hn
          have : (j + 1) * c.maxPayload ≤ c.packetsInLast * c.maxPayload := Nat.mul_le_mul_right _ (by omega)
          omega
      rw [Nat.add_mul] at hj1
      omega
  · have hbuf : (newWave c i).buf.length = w * c.maxPayload := by
      unfold newWave; rw [if_neg hlast]; simp [h.packets, Nat.mul_comm]
    rw [hbuf]
    unfold insertionRange
    have hs : i * w + j ≠ c.packetsNeeded - 1 := by
      have : (i + 1) * w ≤ (c.waveCount - 1) * w := Nat.mul_le_mul_right _ (by omega)
      have hpl : 0 < c.packetsInLast := by
        rw [← h.inLast, lt_divCeil h.mpos]; simpa using h.lastPos
      rw [Nat.add_mul] at this
      rcases h.need with hn | hn <;> omega
    rw [if_neg hs]
    dsimp only
    rw [hmod, Nat.mul_comm c.maxPayload j]
    refine ⟨_, rfl, by omega, ?_⟩
    have : (j + 1) * c.maxPayload ≤ w * c.maxPayload := Nat.mul_le_mul_right _ (by omega)
    rw [Nat.add_mul] at this
    omega

theorem seq_lt (h : Fits c w dec ct plain) {i j : Nat} (hi : i < c.waveCount) (hj : j < kOf c ct i) :
    i * w + j < c.packetsNeeded := by
  have hk := kOf_le h hi
  by_cases hlast : i = c.waveCount - 1
  · have hkl : kOf c ct i = c.packetsInLast := by rw [hlast]; exact h.inLast
    have hn := h.need
    rw [← hlast] at hn
    omega
  · have : (i + 1) * w ≤ (c.waveCount - 1) * w := Nat.mul_le_mul_right _ (by omega)
    rw [Nat.add_mul] at this
    rcases h.need with hn | hn <;> omega

theorem seq_inj (h : Fits c w dec ct plain) {i j i' j' : Nat} (hi : i < c.waveCount) (hj : j < kOf c ct i)
    (hi' : i' < c.waveCount) (hj' : j' < kOf c ct i') (he : i * w + j = i' * w + j') : i = i' ∧ j = j' := by
  have h1 := kOf_le h hi
  have h2 := kOf_le h hi'
  have e1 : (i * w + j) / w = i := by
    rw [Nat.mul_comm, Nat.mul_add_div h.wpos, Nat.div_eq_of_lt (by omega), Nat.add_zero]
  have e2 : (i' * w + j') / w = i' := by
    rw [Nat.mul_comm, Nat.mul_add_div h.wpos, Nat.div_eq_of_lt (by omega), Nat.add_zero]
  have : i = i' := by rw [← e1, he, e2]
  subst this
  omega

/-- Marking packet `(i, j)` leaves other waves alone. -/
theorem set_other (h : Fits c w dec ct plain) {got : Nat → Bool} {i j i' j' : Nat} (hi : i < c.waveCount)
    (hj : j < kOf c ct i) (hi' : i' < c.waveCount) (hj' : j' < kOf c ct i') (hne : i' ≠ i ∨ j' ≠ j) :
    setFn got (i * w + j) true (i' * w + j') = got (i' * w + j') := by
  apply setFn_ne
  intro he
  have := seq_inj h hi' hj' hi hj he
  omega

theorem done_other (h : Fits c w dec ct plain) {got : Nat → Bool} {i j i' : Nat} (hi : i < c.waveCount)
    (hj : j < kOf c ct i) (hi' : i' < c.waveCount) (hne : i' ≠ i) :
    doneB c w ct (setFn got (i * w + j) true) i' = doneB c w ct got i' := by
  rw [Bool.eq_iff_iff, doneB_iff, doneB_iff]
  constructor
  · intro hh j' hj'
    rw [← set_other (got := got) h hi hj hi' hj' (Or.inl hne)]; exact hh j' hj'
  · intro hh j' hj'
    rw [set_other h hi hj hi' hj' (Or.inl hne)]; exact hh j' hj'

theorem length_newWave (c : Cfg) (i : Nat) : (newWave c i).received = 0 ∧ (newWave c i).written = 0 := by
  unfold newWave; split <;> exact ⟨rfl, rfl⟩

theorem tally_false (a : Nat → Nat) (k : Nat) : tally (fun _ => false) a k = 0 := by
  induction k with
  | zero => rfl
  | succ k ih => simp [tally, ih]

theorem tally_none {f : Nat → Bool} {a : Nat → Nat} {k : Nat} (h : ∀ j < k, f j = false) : tally f a k = 0 := by
  rw [tally_congr (g := fun _ => false) h, tally_false]

theorem done_init (h : Fits c w dec ct plain) {i : Nat} (hi : i < c.waveCount) :
    doneB c w ct (fun _ => false) i = false := by
  rw [Bool.eq_false_iff]
  intro hh
  have := doneB_iff.1 hh 0 (kOf_pos h hi)
  cases this

theorem inv_init (h : Fits c w dec ct plain) : Inv c w ct plain (newRecv c) where
  cfg := rfl
  slabLen := by simp [newRecv, h.len]
  gone i hi hd := absurd hd (by rw [show (newRecv c).got = fun _ => false from rfl, done_init h hi]; decide)
  here i hi _ := by
    refine ⟨newWave c i, if_pos hi, inWave_newWave h hi, ?_, ?_, rfl, fun p _ hg => Bool.noConfusion hg⟩
    · rw [(length_newWave c i).1]; exact (tally_false _ _).symm
    · rw [(length_newWave c i).2]; exact (tally_false _ _).symm
  out i hi := if_neg (by omega)
  slab p hp hd := by
    have hN : p / c.maxPlain < c.waveCount := by
      rw [h.waves, lt_divCeil h.ppos]
      exact Nat.lt_of_le_of_lt (Nat.div_mul_le_self p c.maxPlain) hp
    rw [show (newRecv c).got = fun _ => false from rfl, done_init h hN] at hd
    cases hd
  written := by
    refine (tally_none fun i hi => ?_).symm
    exact done_init h hi

/-- All waves marked complete. -/
def allDone (c : Cfg) (w : Nat) (ct : Nat → Bytes) (got : Nat → Bool) : Bool :=
  (List.range c.waveCount).all fun i => doneB c w ct got i

theorem allDone_iff {got : Nat → Bool} : allDone c w ct got = true ↔ ∀ i < c.waveCount, doneB c w ct got i = true := by
  simp [allDone]

theorem buf_complete {i : Nat} {buf : Bytes} (hall : ∀ p < (ct i).length, buf[p]? = (ct i)[p]?) : buf.take (ct i).length = ct i := by
  apply List.ext_getElem?
  intro p
  rw [List.getElem?_take]
  split
  · next hp => exact hall p hp
  · next hp => rw [List.getElem?_eq_none (by omega)]

/-- The status a packet of the group gets, from what had arrived before. -/
def expected (c : Cfg) (w : Nat) (ct : Nat → Bytes) (got : Nat → Bool) (i j : Nat) : Status :=
  if got (i * w + j) then .already
  else
    let got' := setFn got (i * w + j) true
    if doneB c w ct got' i then (if allDone c w ct got' then .groupComplete i else .waveComplete i) else .inserted

theorem setFn_self {got : Nat → Bool} {k : Nat} (h : got k = true) : setFn got k true = got := by
  funext n; unfold setFn; split
  · next hn => rw [hn, h]
  · rfl

theorem step (h : Fits c w dec ct plain) {r : Recv} (hr : Inv c w ct plain r) {i j : Nat} (hi : i < c.waveCount)
    (hj : j < kOf c ct i) :
    (onPacket dec r (packetOf c w ct i j)).2 = expected c w ct r.got i j ∧
      (onPacket dec r (packetOf c w ct i j)).1.got = setFn r.got (i * w + j) true ∧
      Inv c w ct plain (onPacket dec r (packetOf c w ct i j)).1 := by
  have hseq := seq_lt h hi hj
  unfold onPacket packetOf
  dsimp only
  rw [hr.cfg, if_pos hseq]
  unfold expected
  by_cases hg : r.got (i * w + j) = true
  · rw [if_pos hg, if_pos hg]
    exact ⟨rfl, (setFn_self hg).symm, hr⟩
  · rw [if_neg hg, if_neg hg]
    have hg' : r.got (i * w + j) = false := by simpa using hg
    have hnd : doneB c w ct r.got i = false := by
      rw [Bool.eq_false_iff]; intro hd; exact hg (doneB_iff.1 hd j hj)
    obtain ⟨v, hv, h1, h2, h3, h4, h5⟩ := hr.here i hi hnd
    rw [hv]
    dsimp only
    obtain ⟨b, hb1, hb2, hb3⟩ := insertionRange_of h hi hj
    have hins : insertPacket c (i * w + j) v (chunk c.maxPayload (ct i) j) = .ok { v with
        received := v.received + 1, written := v.written + (chunk c.maxPayload (ct i) j).length,
        buf := splice v.buf (j * c.maxPayload) (chunk c.maxPayload (ct i) j) } := by
      unfold insertPacket
      rw [h4, hb1]
      dsimp only
      rw [if_pos (by simp only [checkBounds, Bool.not_eq_true', Bool.and_eq_false_iff, decide_eq_false_iff_not]; omega),
        if_neg (by omega), if_neg (by omega)]
    rw [hins]
    dsimp only
    generalize hgot : setFn r.got (i * w + j) true = got'
    have hset : ∀ (i' j' : Nat), i' < c.waveCount → j' < kOf c ct i' → (i' ≠ i ∨ j' ≠ j) →
        got' (i' * w + j') = r.got (i' * w + j') := by
      intro i' j' hi' hj' hne; rw [← hgot]; exact set_other h hi hj hi' hj' hne
    have hself : got' (i * w + j) = true := by rw [← hgot]; exact setFn_same _ _ _
    have hdo : ∀ i' < c.waveCount, i' ≠ i → doneB c w ct got' i' = doneB c w ct r.got i' := by
      intro i' hi' hne; rw [← hgot]; exact done_other h hi hj hi' hne
    have tal : ∀ a : Nat → Nat, tally (fun j' => got' (i * w + j')) a (kOf c ct i) =
        tally (fun j' => r.got (i * w + j')) a (kOf c ct i) + a j := by
      intro a
      refine Eq.trans (tally_congr (g := setFn (fun j' => r.got (i * w + j')) j true) fun j' hj' => ?_)
        (tally_set (j := j) hj hg' (setFn_same _ _ _) fun n hn => setFn_ne hn)
      by_cases hjj : j' = j
      · rw [hjj, hself, setFn_same]
      · rw [setFn_ne hjj]; exact hset i j' hi hj' (Or.inr hjj)
    have hsl : (splice v.buf (j * c.maxPayload) (chunk c.maxPayload (ct i) j)).length = v.buf.length :=
      length_splice (by omega)
    have hbytes : ∀ p < (ct i).length, got' (i * w + p / c.maxPayload) = true →
        (splice v.buf (j * c.maxPayload) (chunk c.maxPayload (ct i) j))[p]? = (ct i)[p]? := by
      intro p hp hgp
      rw [getElem?_splice (by omega)]
      have hpm : p / c.maxPayload * c.maxPayload ≤ p := Nat.div_mul_le_self _ _
      have hpm2 : p < (p / c.maxPayload + 1) * c.maxPayload := by
        rw [Nat.mul_comm]; exact Nat.lt_mul_div_succ p h.mpos
      split
      · next hin =>
        rw [length_chunk] at hin
        rw [getElem?_chunk (by omega)]
        congr 1
        omega
      · next hout =>
        have hpj : p / c.maxPayload ≠ j := by
          intro he
          rw [he] at hpm hpm2
          rw [length_chunk] at hout
          rw [Nat.add_mul] at hpm2
          omega
        apply h5 p hp
        rw [← hset i (p / c.maxPayload) hi ((lt_of_kOf h).2 (by omega)) (Or.inr hpj)]
        exact hgp
    have hcount : v.received + 1 = v.inWave ↔ doneB c w ct got' i = true := by
      rw [h1, h2, ← tal (fun _ => 1), tally_one_eq, doneB_iff]
    by_cases hd : doneB c w ct got' i = true
    · rw [if_pos (hcount.2 hd), if_pos hd]
      have hw : v.written + (chunk c.maxPayload (ct i) j).length = (ct i).length := by
        rw [h3, ← tal (fun j => (chunk c.maxPayload (ct i) j).length), tally_all (doneB_iff.1 hd), kOf,
          tally_chunks_all h.mpos]
      have hct : (splice v.buf (j * c.maxPayload) (chunk c.maxPayload (ct i) j)).take (ct i).length = ct i := by
        refine buf_complete fun p hp => hbytes p hp ?_
        refine doneB_iff.1 hd _ ((lt_of_kOf h).2 ?_)
        exact Nat.lt_of_le_of_lt (Nat.div_mul_le_self p c.maxPayload) hp
      unfold finishWave
      dsimp only
      rw [hw, hct, h.dec i hi]
      dsimp only
      have hiP : i * c.maxPlain < plain.length := by rw [← lt_divCeil h.ppos, ← h.waves]; exact hi
      have hlc := length_chunk c.maxPlain plain i
      rw [hr.slabLen, if_neg (by omega)]
      have hst : ∀ n, setFn (setFn r.store i (some { v with
          received := v.received + 1, written := (ct i).length,
          buf := splice v.buf (j * c.maxPayload) (chunk c.maxPayload (ct i) j) })) i none n = setFn r.store i none n := by
        intro n; unfold setFn; split <;> rfl
      rw [show (setFn (setFn r.store i (some { v with
          received := v.received + 1, written := (ct i).length,
          buf := splice v.buf (j * c.maxPayload) (chunk c.maxPayload (ct i) j) })) i none) = setFn r.store i none from
        funext hst]
      have hpw : r.plainWritten + (chunk c.maxPlain plain i).length =
          tally (doneB c w ct got') (fun i => (chunk c.maxPlain plain i).length) c.waveCount := by
        rw [hr.written]
        symm
        refine Eq.trans (tally_congr (g := setFn (doneB c w ct r.got) i true) fun i' hi' => ?_)
          (tally_set (j := i) hi hnd (setFn_same _ _ _) fun n hn => setFn_ne hn)
        by_cases hii : i' = i
        · rw [hii, hd, setFn_same]
        · rw [setFn_ne hii]; exact hdo i' hi' hii
      have hgone : ∀ i' < c.waveCount, doneB c w ct got' i' = true → setFn r.store i none i' = none := by
        intro i' hi' hdi
        by_cases hii : i' = i
        · rw [hii, setFn_same]
        · rw [setFn_ne hii]; rw [hdo i' hi' hii] at hdi; exact hr.gone i' hi' hdi
      have hhere : ∀ i' < c.waveCount, doneB c w ct got' i' = false → ∃ v, setFn r.store i none i' = some v ∧
          v.inWave = kOf c ct i' ∧
          v.received = tally (fun j => got' (i' * w + j)) (fun _ => 1) (kOf c ct i') ∧
          v.written = tally (fun j => got' (i' * w + j)) (fun j => (chunk c.maxPayload (ct i') j).length) (kOf c ct i') ∧
          v.buf.length = (newWave c i').buf.length ∧
          ∀ p < (ct i').length, got' (i' * w + p / c.maxPayload) = true → v.buf[p]? = (ct i')[p]? := by
        intro i' hi' hdi
        have hii : i' ≠ i := by intro he; rw [he, hd] at hdi; cases hdi
        rw [hdo i' hi' hii] at hdi
        obtain ⟨v', k0, k1, k2, k3, k4, k5⟩ := hr.here i' hi' hdi
        refine ⟨v', by rw [setFn_ne hii]; exact k0, k1, ?_, ?_, k4, fun p hp hgp => k5 p hp ?_⟩
        · rw [k2]; exact tally_congr fun j' hj' => (hset i' j' hi' hj' (Or.inl hii)).symm
        · rw [k3]; exact tally_congr fun j' hj' => (hset i' j' hi' hj' (Or.inl hii)).symm
        · rw [← hset i' _ hi' ((lt_of_kOf h).2 (Nat.lt_of_le_of_lt (Nat.div_mul_le_self p c.maxPayload) hp)) (Or.inl hii)]
          exact hgp
      have hout : ∀ n, c.waveCount ≤ n → setFn r.store i none n = none := by
        intro n hn; rw [setFn_ne (by omega)]; exact hr.out n hn
      have hslab : ∀ p < plain.length, doneB c w ct got' (p / c.maxPlain) = true →
          (splice r.slab (i * c.maxPlain) (chunk c.maxPlain plain i))[p]? = plain[p]? := by
        intro p hp hdp
        rw [getElem?_splice (by rw [hr.slabLen]; omega)]
        have hpm : p / c.maxPlain * c.maxPlain ≤ p := Nat.div_mul_le_self _ _
        have hpm2 : p < (p / c.maxPlain + 1) * c.maxPlain := by
          rw [Nat.mul_comm]; exact Nat.lt_mul_div_succ p h.ppos
        split
        · next hin =>
          rw [getElem?_chunk (by omega)]
          congr 1
          omega
        · next hno =>
          have hpi : p / c.maxPlain ≠ i := by
            intro he
            rw [he] at hpm hpm2
            rw [Nat.add_mul] at hpm2
            omega
          have hN : p / c.maxPlain < c.waveCount := by rw [h.waves, lt_divCeil h.ppos]; omega
          rw [hdo _ hN hpi] at hdp
          exact hr.slab p hp hdp
      have hsplen : (splice r.slab (i * c.maxPlain) (chunk c.maxPlain plain i)).length = plain.length := by
        rw [length_splice (by rw [hr.slabLen]; omega), hr.slabLen]
      have hempty : ∀ (x : Recv), x.cfg = c → x.store = setFn r.store i none → storeEmpty x = allDone c w ct got' := by
        intro x hx hxs
        rw [Bool.eq_iff_iff, allDone_iff]
        unfold storeEmpty
        rw [hx, hxs, List.all_eq_true]
        constructor
        · intro hh i' hi'
          by_contra hc
          have hc' : doneB c w ct got' i' = false := by simpa using hc
          obtain ⟨v', k0, -⟩ := hhere i' hi' hc'
          have := hh i' (List.mem_range.2 hi')
          rw [k0] at this; cases this
        · intro hh i' hi'
          rw [hgone i' (List.mem_range.1 hi') (hh i' (List.mem_range.1 hi'))]; rfl
      rw [hempty _ rfl rfl]
      by_cases ha : allDone c w ct got' = true
      · rw [if_pos ha, if_pos ha]
        have htot : r.plainWritten + (chunk c.maxPlain plain i).length =
            (splice r.slab (i * c.maxPlain) (chunk c.maxPlain plain i)).length := by
          rw [hpw, hsplen, tally_all (allDone_iff.1 ha), h.waves, tally_chunks_all h.ppos]
        rw [if_neg (not_not.2 htot)]
        exact ⟨rfl, rfl, rfl, hsplen, hgone, hhere, hout, hslab, hpw⟩
      · rw [if_neg ha, if_neg ha]
        exact ⟨rfl, rfl, rfl, hsplen, hgone, hhere, hout, hslab, hpw⟩
    · rw [if_neg (fun hh => hd (hcount.1 hh)), if_neg hd]
      have hd' : doneB c w ct got' i = false := by simpa using hd
      refine ⟨rfl, rfl, rfl, hr.slabLen, ?_, ?_, ?_, ?_, ?_⟩
      · intro i' hi' hdi
        have hii : i' ≠ i := by intro he; rw [he, hd'] at hdi; cases hdi
        rw [hdo i' hi' hii] at hdi
        dsimp only
        rw [setFn_ne hii]; exact hr.gone i' hi' hdi
      · intro i' hi' hdi
        by_cases hii : i' = i
        · subst hii
          refine ⟨_, setFn_same _ _ _, h1, ?_, ?_, ?_, hbytes⟩
          · rw [h2]; exact (tal fun _ => 1).symm
          · rw [h3]; exact (tal fun j => (chunk c.maxPayload (ct i') j).length).symm
          · exact hsl.trans h4
        · dsimp only at hdi
          rw [hdo i' hi' hii] at hdi
          obtain ⟨v', k0, k1, k2, k3, k4, k5⟩ := hr.here i' hi' hdi
          refine ⟨v', by dsimp only; rw [setFn_ne hii]; exact k0, k1, ?_, ?_, k4, fun p hp hgp => k5 p hp ?_⟩
          · rw [k2]; exact tally_congr fun j' hj' => (hset i' j' hi' hj' (Or.inl hii)).symm
          · rw [k3]; exact tally_congr fun j' hj' => (hset i' j' hi' hj' (Or.inl hii)).symm
          · rw [← hset i' _ hi' ((lt_of_kOf h).2 (Nat.lt_of_le_of_lt (Nat.div_mul_le_self p c.maxPayload) hp)) (Or.inl hii)]
            exact hgp
      · intro n hn
        dsimp only
        rw [setFn_ne (by omega)]; exact hr.out n hn
      · intro p hp hdp
        have hN : p / c.maxPlain < c.waveCount := by
          rw [h.waves, lt_divCeil h.ppos]
          exact Nat.lt_of_le_of_lt (Nat.div_mul_le_self p c.maxPlain) hp
        have hpi : p / c.maxPlain ≠ i := by intro he; dsimp only at hdp; rw [he, hd'] at hdp; cases hdp
        dsimp only at hdp ⊢
        rw [hdo _ hN hpi] at hdp
        exact hr.slab p hp hdp
      · dsimp only
        rw [hr.written]
        refine tally_congr fun i' hi' => ?_
        by_cases hii : i' = i
        · rw [hii, hd', hnd]
        · exact (hdo i' hi' hii).symm

/-- A packet of the group. -/
def Genuine (c : Cfg) (w : Nat) (ct : Nat → Bytes) (p : Packet) : Prop :=
  ∃ i j, i < c.waveCount ∧ j < kOf c ct i ∧ p = packetOf c w ct i j

/-- Reports the end of wave `i`. -/
def endsWave (i : Nat) (s : Status) : Bool := decide (s = .waveComplete i) || decide (s = .groupComplete i)

/-- Reports the end of the group. -/
def endsGroup : Status → Bool
  | .groupComplete _ => true
  | _ => false

theorem deliver_genuine (h : Fits c w dec ct plain) (ps : List Packet) : ∀ {r : Recv}, Inv c w ct plain r →
    (∀ p ∈ ps, Genuine c w ct p) →
    Inv c w ct plain (deliver dec r ps).1 ∧
      (∀ s ∈ (deliver dec r ps).2, s = .already ∨ s = .inserted ∨ ∃ i < c.waveCount, endsWave i s = true) ∧
      (∀ i j, i < c.waveCount → j < kOf c ct i →
        ((deliver dec r ps).1.got (i * w + j) = true ↔ r.got (i * w + j) = true ∨ packetOf c w ct i j ∈ ps)) ∧
      ((deliver dec r ps).2.filter endsGroup).length + (allDone c w ct r.got).toNat =
        (allDone c w ct (deliver dec r ps).1.got).toNat ∧
      ∀ i < c.waveCount, ((deliver dec r ps).2.filter (endsWave i)).length + (doneB c w ct r.got i).toNat =
        (doneB c w ct (deliver dec r ps).1.got i).toNat := by
  induction ps with
  | nil =>
    intro r hr _
    simpa [deliver] using hr
  | cons p ps ih =>
    intro r hr hps
    obtain ⟨i, j, hi, hj, hp⟩ := hps p (by simp)
    obtain ⟨s1, s2, s3⟩ := step h hr hi hj
    rw [← hp] at s1 s2 s3
    obtain ⟨t1, t2, t3, t4, t5⟩ := ih s3 fun q hq => hps q (by simp [hq])
    simp only [deliver]
    refine ⟨t1, ?_, ?_, ?_, ?_⟩
    · intro s hs
      rcases List.mem_cons.1 hs with hs | hs
      · rw [hs, s1]
        unfold expected
        split
        · exact .inl rfl
        · dsimp only
          split
          · right; right
            refine ⟨i, hi, ?_⟩
            split <;> simp [endsWave]
          · exact .inr (.inl rfl)
      · exact t2 s hs
    · intro i' j' hi' hj'
      rw [t3 i' j' hi' hj', s2]
      constructor
      · rintro (hh | hh)
        · by_cases he : i' * w + j' = i * w + j
          · obtain ⟨e1, e2⟩ := seq_inj h hi' hj' hi hj he
            subst e1; subst e2
            right; rw [hp]; simp
          · rw [setFn_ne he] at hh; exact .inl hh
        · exact .inr (by simp [hh])
      · rintro (hh | hh)
        · left
          by_cases he : i' * w + j' = i * w + j
          · rw [he, setFn_same]
          · rw [setFn_ne he]; exact hh
        · rcases List.mem_cons.1 hh with hh | hh
          · left
            rw [hp] at hh
            have : i' * w + j' = i * w + j := congrArg Packet.seq hh
            rw [this, setFn_same]
          · exact .inr hh
    · rw [← t4, s2, List.filter_cons]
      have key : (if endsGroup (onPacket dec r p).2 = true then 1 else 0) + (allDone c w ct r.got).toNat =
          (allDone c w ct (setFn r.got (i * w + j) true)).toNat := by
        rw [s1]
        unfold expected
        by_cases hg : r.got (i * w + j) = true
        · rw [if_pos hg, setFn_self hg]; simp [endsGroup]
        · rw [if_neg hg]
          have hna : allDone c w ct r.got = false := by
            rw [Bool.eq_false_iff]; intro ha
            exact hg (doneB_iff.1 (allDone_iff.1 ha i hi) j hj)
          rw [hna]
          dsimp only
          by_cases hd : doneB c w ct (setFn r.got (i * w + j) true) i = true
          · rw [if_pos hd]
            by_cases ha : allDone c w ct (setFn r.got (i * w + j) true) = true
            · rw [if_pos ha, ha]; simp [endsGroup]
            · rw [if_neg ha, Bool.eq_false_iff.2 ha]; simp [endsGroup]
          · rw [if_neg hd]
            have ha : allDone c w ct (setFn r.got (i * w + j) true) = false := by
              rw [Bool.eq_false_iff]; intro ha; exact hd (allDone_iff.1 ha i hi)
            rw [ha]; simp [endsGroup]
      rw [← key]
      by_cases he : endsGroup (onPacket dec r p).2 = true
      · rw [if_pos he, if_pos he, List.length_cons]; omega
      · rw [if_neg he, if_neg he]; omega
    · intro i' hi'
      rw [← t5 i' hi', s2, List.filter_cons]
      have key : (if endsWave i' (onPacket dec r p).2 = true then 1 else 0) + (doneB c w ct r.got i').toNat =
          (doneB c w ct (setFn r.got (i * w + j) true) i').toNat := by
        rw [s1]
        unfold expected
        by_cases hg : r.got (i * w + j) = true
        · rw [if_pos hg, setFn_self hg]; simp [endsWave]
        · rw [if_neg hg]
          have hnd : doneB c w ct r.got i = false := by
            rw [Bool.eq_false_iff]; intro hd; exact hg (doneB_iff.1 hd j hj)
          dsimp only
          by_cases hii : i' = i
          · subst hii
            rw [hnd]
            by_cases hd : doneB c w ct (setFn r.got (i' * w + j) true) i' = true
            · rw [if_pos hd, hd]; split <;> simp [endsWave]
            · rw [if_neg hd, Bool.eq_false_iff.2 hd]; simp [endsWave]
          · rw [done_other h hi hj hi' hii]
            have : ¬ i = i' := fun e => hii e.symm
            split
            · split <;> simp [endsWave, this]
            · simp [endsWave]
      rw [← key]
      by_cases he : endsWave i' (onPacket dec r p).2 = true
      · rw [if_pos he, if_pos he, List.length_cons]; omega
      · rw [if_neg he, if_neg he]; omega

/-- The receiver fed with exactly the packets of a group, in any order and with repetitions. -/
theorem reassemble (h : Fits c w dec ct plain) (ps : List Packet) (hps : ∀ p ∈ ps, Genuine c w ct p)
    (hall : ∀ i j, i < c.waveCount → j < kOf c ct i → packetOf c w ct i j ∈ ps) :
    (deliver dec (newRecv c) ps).1.slab = plain ∧
      ((deliver dec (newRecv c) ps).2.filter endsGroup).length = 1 ∧
      (∀ i < c.waveCount, ((deliver dec (newRecv c) ps).2.filter (endsWave i)).length = 1) ∧
      ∀ s ∈ (deliver dec (newRecv c) ps).2, s = .already ∨ s = .inserted ∨ ∃ i < c.waveCount, endsWave i s = true := by
  obtain ⟨t1, t2, t3, t4, t5⟩ := deliver_genuine h ps (inv_init h) hps
  have hdone : ∀ i < c.waveCount, doneB c w ct (deliver dec (newRecv c) ps).1.got i = true := by
    intro i hi
    exact doneB_iff.2 fun j hj => (t3 i j hi hj).2 (.inr (hall i j hi hj))
  have hN : 0 < c.waveCount := by rw [h.waves, lt_divCeil h.ppos]; simpa using h.nonempty
  refine ⟨?_, ?_, ?_, t2⟩
  · apply List.ext_getElem?
    intro p
    by_cases hp : p < plain.length
    · refine t1.slab p hp (hdone _ ?_)
      rw [h.waves, lt_divCeil h.ppos]
      exact Nat.lt_of_le_of_lt (Nat.div_mul_le_self p c.maxPlain) hp
    · rw [List.getElem?_eq_none (by rw [t1.slabLen]; omega), List.getElem?_eq_none (by omega)]
  · rw [allDone_iff.2 hdone] at t4
    have : allDone c w ct (newRecv c).got = false := by
      rw [Bool.eq_false_iff]; intro ha
      have := allDone_iff.1 ha 0 hN
      rw [show (newRecv c).got = fun _ => false from rfl, done_init h hN] at this
      cases this
    rw [this] at t4
    simpa using t4
  · intro i hi
    have := t5 i hi
    rw [hdone i hi, show (newRecv c).got = fun _ => false from rfl, done_init h hi] at this
    simpa using this

end
end Verif.Splitter

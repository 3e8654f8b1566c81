import Verif.Splitter.Props
import Mathlib.Data.List.Nodup
/-
Properties C15 and C16: what the receiver reports as missing, and what the sender makes of acknowledgements.
-/
namespace Verif.Splitter
open Verif

/-! ### C15: the missing-wave report -/

/-- Five waves of one packet each. -/
def fiveWaves : Cfg :=
  { packetsNeeded := 5, maxPackets := 1, plainLen := 5, maxPayload := 1, lastPayload := 1, fullWaves := 4
    partialWaves := 1, waveCount := 5, maxPlain := 1, lastPlain := 1, packetsInLast := 1, emptyTransfer := false }

/-- C15 is false: as long as wave 0 has not arrived nothing is reported. -/
theorem C15_counterexample_first :
    let t := deliver some (newRecv fiveWaves) [⟨1, 1, [7]⟩]
    validate fiveWaves = true ∧ t.2 = [.waveComplete 1] ∧ t.1.wavesGot 0 = false ∧ missingWaves t.1 = some [] := by
  decide

/-- C15 is false: only the most recent wave counts as the later one; here wave 2 is missing before wave 3, and not reported. -/
theorem C15_counterexample_recent :
    let t := deliver some (newRecv fiveWaves) [⟨0, 0, [7]⟩, ⟨3, 3, [7]⟩, ⟨1, 1, [7]⟩]
    t.2 = [.waveComplete 0, .waveComplete 3, .waveComplete 1] ∧ t.1.wavesGot 2 = false ∧ missingWaves t.1 = some [] := by
  decide

/-- The wave of a status, if it is a completed wave, else the given one. -/
def recent (a : Int) : Status → Int
  | .waveComplete k => k
  | _ => a

/-- What the bookkeeping of waves means, relative to the statuses reported so far. -/
structure RInv (r : Recv) (ss : List Status) : Prop where
  got : ∀ i, r.wavesGot i = true ↔ Status.waveComplete i ∈ ss
  gone : ∀ i, r.wavesGot i = true → r.store i = none
  out : ∀ i, r.cfg.waveCount ≤ i → r.store i = none
  le : r.lowest ≤ r.last
  bound : r.last < r.cfg.waveCount
  below : ∀ i : Nat, (i : Int) ≤ r.lowest → r.wavesGot i = true
  last : 0 ≤ r.last → Status.waveComplete r.last.toNat ∈ ss
  first : r.wavesGot 0 = true → 0 ≤ r.lowest
  low : -1 ≤ r.lowest
  recent : r.last = ss.foldl recent (-1)

theorem rinv_init (c : Cfg) : RInv (newRecv c) [] :=
  ⟨by simp [newRecv], by simp [newRecv], fun i hi => if_neg (by simpa [newRecv] using hi), Int.le_refl _,
    by show (-1 : Int) < c.waveCount; omega, fun i hi => by change (i : Int) ≤ -1 at hi; omega,
    fun h => by change (0 : Int) ≤ -1 at h; omega, by simp [newRecv], Int.le_refl _, rfl⟩

/-- Neither the new status nor the change to the store matters. -/
theorem RInv.mono {r r' : Recv} {ss : List Status} {s : Status} (h : RInv r ss) (hs : ∀ i, s ≠ .waveComplete i)
    (h1 : r'.cfg = r.cfg) (h2 : r'.wavesGot = r.wavesGot) (h3 : r'.lowest = r.lowest) (h4 : r'.last = r.last)
    (h5 : ∀ i, r.store i = none → r'.store i = none) : RInv r' (ss ++ [s]) := by
  refine ⟨fun i => ?_, fun i hi => ?_, fun i hi => ?_, by rw [h3, h4]; exact h.le, by rw [h1, h4]; exact h.bound,
    fun i hi => ?_, fun hl => ?_, fun hf => ?_, by rw [h3]; exact h.low, ?_⟩
  · rw [h2, h.got i, List.mem_append, List.mem_singleton]
    exact ⟨Or.inl, fun hh => hh.elim id fun e => absurd e.symm (hs i)⟩
  · rw [h2] at hi; exact h5 i (h.gone i hi)
  · rw [h1] at hi; exact h5 i (h.out i hi)
  · rw [h3] at hi; rw [h2]; exact h.below i hi
  · rw [h4] at hl ⊢; exact List.mem_append_left _ (h.last hl)
  · rw [h2] at hf; rw [h3]; exact h.first hf
  · rw [h4, List.foldl_append, ← h.recent]
    show r.last = Splitter.recent r.last s
    unfold Splitter.recent
    split
    · next k => exact absurd rfl (hs k)
    · rfl

theorem rinv_finish (dec : Bytes → Option Bytes) {r : Recv} {ss : List Status} {wave : Nat} {v u : Wave} (h : RInv r ss)
    (hu : r.store wave = some u) :
    RInv (finishWave dec r wave v).1 (ss ++ [(finishWave dec r wave v).2]) := by
  have hng : r.wavesGot wave = false := by
    cases hg : r.wavesGot wave with
    | false => rfl
    | true => rw [h.gone wave hg] at hu; cases hu
  have hlt : wave < r.cfg.waveCount := by
    apply Nat.lt_of_not_le
    intro hh
    rw [h.out wave hh] at hu; cases hu
  have hst : ∀ i, r.store i = none → setFn r.store wave none i = none := by
    intro i hi
    unfold setFn; split
    · rfl
    · exact hi
  unfold finishWave
  dsimp only
  split
  · exact h.mono (by simp) rfl rfl rfl rfl hst
  · split
    · exact h.mono (by simp) rfl rfl rfl rfl hst
    · split
      · split
        · exact h.mono (by simp) rfl rfl rfl rfl hst
        · exact h.mono (by simp) rfl rfl rfl rfl hst
      · have hlow : r.lowest < wave := by
          apply Int.lt_of_not_ge
          intro hh
          rw [h.below wave hh] at hng; cases hng
        refine ⟨fun i => ?_, fun i hi => ?_, fun i hi => hst i (h.out i hi), ?_, ?_, fun i hi => ?_, fun _ => ?_, fun hf => ?_, ?_, ?_⟩
        · show setFn r.wavesGot wave true i = true ↔ _
          rw [List.mem_append, List.mem_singleton]
          by_cases e : i = wave
          · subst e; rw [setFn_same]; simp
          · rw [setFn_ne e, h.got i]
            exact ⟨Or.inl, fun hh => hh.elim id fun e' => absurd (Status.waveComplete.inj e') e⟩
        · change setFn r.wavesGot wave true i = true at hi
          show setFn r.store wave none i = none
          by_cases e : i = wave
          · subst e; rw [setFn_same]
          · rw [setFn_ne e] at hi ⊢; exact h.gone i hi
        · show (if (wave : Int) - 1 = r.lowest then (wave : Int) else r.lowest) ≤ wave
          split <;> omega
        · show (wave : Int) < r.cfg.waveCount
          omega
        · change (i : Int) ≤ (if (wave : Int) - 1 = r.lowest then (wave : Int) else r.lowest) at hi
          show setFn r.wavesGot wave true i = true
          by_cases e : i = wave
          · subst e; rw [setFn_same]
          · rw [setFn_ne e]
            refine h.below i ?_
            split at hi <;> omega
        · show Status.waveComplete (wave : Int).toNat ∈ _
          rw [List.mem_append, List.mem_singleton, Int.toNat_natCast]
          exact Or.inr rfl
        · change setFn r.wavesGot wave true 0 = true at hf
          show 0 ≤ (if (wave : Int) - 1 = r.lowest then (wave : Int) else r.lowest)
          have hl := h.low
          by_cases e : 0 = wave
          · split <;> omega
          · rw [setFn_ne e] at hf
            have := h.first hf
            split <;> omega
        · show -1 ≤ (if (wave : Int) - 1 = r.lowest then (wave : Int) else r.lowest)
          have hl := h.low
          split <;> omega
        · rw [List.foldl_append]
          rfl

theorem rinv_step (dec : Bytes → Option Bytes) {r : Recv} {ss : List Status} (p : Packet) (h : RInv r ss) :
    RInv (onPacket dec r p).1 (ss ++ [(onPacket dec r p).2]) := by
  unfold onPacket
  split
  · split
    · exact h.mono (by simp) rfl rfl rfl rfl fun _ => id
    · dsimp only
      split
      · exact h.mono (by simp) rfl rfl rfl rfl fun _ => id
      · next v hv =>
        split
        · next s hs =>
          refine h.mono ?_ rfl rfl rfl rfl fun _ => id
          unfold insertPacket at hs
          split at hs
          · cases hs; simp
          · split at hs
            · split at hs
              · cases hs; simp
              · split at hs
                · cases hs; simp
                · cases hs
            · cases hs; simp
        · next v' _ =>
          have hkeep : ∀ i, r.store i = none → setFn r.store p.wave (some v') i = none := by
            intro i hi
            have : i ≠ p.wave := by intro e; subst e; rw [hv] at hi; cases hi
            rw [setFn_ne this]; exact hi
          split
          · refine rinv_finish dec (u := v') ⟨h.got, fun i hi => hkeep i (h.gone i hi), fun i hi => hkeep i (h.out i hi), h.le,
              h.bound, h.below, h.last, h.first, h.low, h.recent⟩ ?_
            exact setFn_same _ _ _
          · exact h.mono (by simp) rfl rfl rfl rfl hkeep
  · exact h.mono (by simp) rfl rfl rfl rfl fun _ => id

theorem rinv_deliver (dec : Bytes → Option Bytes) (ps : List Packet) : ∀ {r : Recv} {ss : List Status}, RInv r ss →
    RInv (deliver dec r ps).1 (ss ++ (deliver dec r ps).2) := by
  induction ps with
  | nil => intro r ss h; simpa [deliver] using h
  | cons p ps ih =>
    intro r ss h
    have := ih (rinv_step dec p h)
    simpa [deliver] using this

/-- C15: after any packets at all, asking for the missing waves does not panic, and every wave in the answer has not been
completed although a later one has. -/
theorem C15_reported_are_missing_partial (dec : Bytes → Option Bytes) (c : Cfg) (ps : List Packet) :
    ∃ ms, missingWaves (deliver dec (newRecv c) ps).1 = some ms ∧
      ∀ m ∈ ms, Status.waveComplete m ∉ (deliver dec (newRecv c) ps).2 ∧
        ∃ k, m < k ∧ k < c.waveCount ∧ Status.waveComplete k ∈ (deliver dec (newRecv c) ps).2 := by
  have h := rinv_deliver dec ps (rinv_init c)
  rw [List.nil_append] at h
  have hcfg : (deliver dec (newRecv c) ps).1.cfg = c := deliver_cfg _ _
  generalize deliver dec (newRecv c) ps = t at h hcfg ⊢
  have hle := h.le
  have hb := h.bound
  rw [hcfg] at hb
  unfold missingWaves
  dsimp only
  by_cases h0 : t.1.lowest < 0
  · rw [if_pos h0]; exact ⟨[], rfl, by simp⟩
  · rw [if_neg h0, if_neg (by rw [hcfg]; omega)]
    refine ⟨_, rfl, fun m hm => ?_⟩
    simp only [List.mem_filter, List.mem_range'_1, Bool.not_eq_true', ] at hm
    refine ⟨fun hc => ?_, t.1.last.toNat, by omega, by omega, h.last (by omega)⟩
    rw [← h.got, hm.2] at hc; cases hc

theorem foldl_recent_none (b : List Status) (hb : ∀ s ∈ b, ∀ i, s ≠ .waveComplete i) (a : Int) : b.foldl recent a = a := by
  induction b generalizing a with
  | nil => rfl
  | cons s b ih =>
    rw [List.foldl_cons, ih fun t ht => hb t (List.mem_cons_of_mem _ ht)]
    unfold recent
    split
    · next k => exact absurd rfl (hb _ List.mem_cons_self k)
    · rfl

/-- C15: if wave 0 is complete and wave `k` is the one completed most recently, the answer is exactly what is missing
before `k`, whatever packets arrived. -/
theorem C15_exact_partial (dec : Bytes → Option Bytes) (c : Cfg) (ps : List Packet) (k : Nat) (a b : List Status)
    (hss : (deliver dec (newRecv c) ps).2 = a ++ .waveComplete k :: b) (hb : ∀ s ∈ b, ∀ i, s ≠ .waveComplete i)
    (h0 : Status.waveComplete 0 ∈ a ++ [.waveComplete k]) :
    ∃ ms, missingWaves (deliver dec (newRecv c) ps).1 = some ms ∧
      ∀ m, m ∈ ms ↔ m < k ∧ Status.waveComplete m ∉ (deliver dec (newRecv c) ps).2 := by
  have h := rinv_deliver dec ps (rinv_init c)
  rw [List.nil_append] at h
  have hcfg : (deliver dec (newRecv c) ps).1.cfg = c := deliver_cfg _ _
  have hk : ((deliver dec (newRecv c) ps).1.last : Int) = k := by
    rw [h.recent, hss, List.foldl_append, List.foldl_cons, foldl_recent_none b hb]; rfl
  have hlow : 0 ≤ (deliver dec (newRecv c) ps).1.lowest := by
    refine h.first ((h.got 0).2 ?_)
    rw [hss]
    simp only [List.mem_append, List.mem_cons] at h0 ⊢
    tauto
  generalize deliver dec (newRecv c) ps = t at h hcfg hk hlow ⊢
  have hle := h.le
  have hb := h.bound
  rw [hcfg] at hb
  unfold missingWaves
  dsimp only
  rw [if_neg (by omega), if_neg (by rw [hcfg]; omega)]
  refine ⟨_, rfl, fun m => ?_⟩
  simp only [List.mem_filter, List.mem_range'_1, Bool.not_eq_true']
  rw [← h.got m]
  constructor
  · rintro ⟨⟨h1, h2⟩, h3⟩
    refine ⟨by omega, by rw [h3]; decide⟩
  · rintro ⟨h1, h2⟩
    have hm : ¬ (m : Int) ≤ t.1.lowest := fun hh => h2 (h.below m hh)
    refine ⟨by omega, by simpa using h2⟩

/-- Waves 0 and 3 arrived: 1 and 2 are reported. -/
example :
    let t := deliver some (newRecv fiveWaves) [⟨0, 0, [7]⟩, ⟨3, 3, [7]⟩]
    t.2 = [.waveComplete 0] ++ .waveComplete 3 :: [] ∧ missingWaves t.1 = some [1, 2] := by
  decide

/-- C15: for genuine packets in any order and any duplicates, the count of missing packets of a wave is exact, and there is no
count once the wave is complete. -/
theorem C15_missing_count {c : Cfg} {w : Nat} {dec : Bytes → Option Bytes} {ct : Nat → Bytes} {plain : Bytes}
    (h : Fits c w dec ct plain) (ps : List Packet) (hps : ∀ p ∈ ps, Genuine c w ct p) {i : Nat} (hi : i < c.waveCount) :
    missingCount (deliver dec (newRecv c) ps).1 i =
      let missing := ((List.range (kOf c ct i)).filter fun j => decide (packetOf c w ct i j ∉ ps)).length
      if missing = 0 then none else some missing := by
  have hg := deliver_genuine h ps (inv_init h) hps
  have hgot : ∀ j < kOf c ct i, (deliver dec (newRecv c) ps).1.got (i * w + j) = decide (packetOf c w ct i j ∈ ps) := by
    intro j hj
    have := hg.2.2.1 i j hi hj
    rw [Bool.eq_iff_iff, this, decide_eq_true_eq]
    simp [newRecv]
  have hcount : ∀ k, k ≤ kOf c ct i → tally (fun j => (deliver dec (newRecv c) ps).1.got (i * w + j)) (fun _ => 1) k +
      ((List.range k).filter fun j => decide (packetOf c w ct i j ∉ ps)).length = k := by
    intro k
    induction k with
    | zero => intro _; rfl
    | succ k ih =>
      intro hk
      have := ih (by omega)
      rw [List.range_succ, List.filter_append, List.length_append]
      simp only [tally]
      rw [hgot k (by omega)]
      by_cases hm : packetOf c w ct i k ∈ ps
      · rw [List.filter_cons_of_neg (by simpa using hm)]
        simp only [hm, decide_true, if_true, List.filter_nil, List.length_nil]
        omega
      · rw [List.filter_cons_of_pos (by simpa using hm)]
        simp only [hm, decide_false, Bool.false_eq_true, if_false, List.filter_nil, List.length_cons, List.length_nil]
        omega
  have hc := hcount _ (Nat.le_refl _)
  dsimp only
  unfold missingCount
  cases hd : doneB c w ct (deliver dec (newRecv c) ps).1.got i with
  | true =>
    rw [hg.1.gone i hi hd]
    have : tally (fun j => (deliver dec (newRecv c) ps).1.got (i * w + j)) (fun _ => 1) (kOf c ct i) = kOf c ct i :=
      tally_one_eq.2 (doneB_iff.1 hd)
    rw [if_pos (by omega)]; rfl
  | false =>
    obtain ⟨v, h1, h2, h3, _⟩ := hg.1.here i hi hd
    have hne : tally (fun j => (deliver dec (newRecv c) ps).1.got (i * w + j)) (fun _ => 1) (kOf c ct i) ≠ kOf c ct i := by
      intro hh
      rw [doneB_iff.2 (tally_one_eq.1 hh)] at hd; cases hd
    rw [h1, if_neg (by omega)]
    show some (v.inWave - v.received) = _
    rw [h2, h3]
    congr 1
    omega

/-! ### C16: acknowledgements -/

/-- The sender's counter after acknowledgements. -/
def ackCount (c : Cfg) (ws : List Nat) : Nat := ws.foldl (fun n w => (onAck c n w).1) 0

/-- The announced number of packets is the sum over the waves. -/
structure Consistent (c : Cfg) : Prop where
  sum : c.packetsNeeded = ((List.range c.waveCount).map (packetsInWave c)).sum
  pos : ∀ i < c.waveCount, 0 < packetsInWave c i

theorem tally_sum (a : Nat → Nat) (k : Nat) : ((List.range k).map a).sum = tally (fun _ => true) a k := by
  induction k with
  | zero => rfl
  | succ k ih => rw [List.range_succ, List.map_append, List.sum_append, ih]; simp [tally]

theorem tally_le_all (f : Nat → Bool) (a : Nat → Nat) (k : Nat) : tally f a k ≤ tally (fun _ => true) a k := by
  induction k with
  | zero => exact Nat.le_refl _
  | succ k ih => simp only [tally]; split <;> simp <;> omega

theorem tally_eq_all {f : Nat → Bool} {a : Nat → Nat} {k : Nat} (ha : ∀ i < k, 0 < a i) :
    tally f a k = tally (fun _ => true) a k ↔ ∀ i < k, f i = true := by
  constructor
  · induction k with
    | zero => intro _ i hi; omega
    | succ k ih =>
      intro h i hi
      simp only [tally, if_true] at h
      have hle := tally_le_all f a k
      have hk := ha k (by omega)
      cases hf : f k with
      | false => rw [hf] at h; simp at h; omega
      | true =>
        rw [hf] at h
        simp only [if_true] at h
        by_cases e : i = k
        · subst e; exact hf
        · exact ih (fun i hi => ha i (by omega)) (by omega) i (by omega)
  · exact tally_all

theorem ackCount_tally (c : Cfg) (ws : List Nat) (hn : (ws.filter (· < c.waveCount)).Nodup) :
    ackCount c ws = tally (fun i => decide (i ∈ ws)) (packetsInWave c) c.waveCount := by
  induction ws using List.reverseRecOn with
  | nil => exact (tally_none (by simp)).symm
  | append_singleton ws x ih =>
    rw [List.filter_append] at hn
    have ih := ih (List.nodup_append.1 hn).1
    unfold ackCount at ih ⊢
    rw [List.foldl_append, List.foldl_cons, List.foldl_nil, ih]
    unfold onAck
    split
    · next hx =>
      refine tally_congr fun j hj => ?_
      have : j ≠ x := by omega
      simp [this]
    · next hx =>
      have hlt : x < c.waveCount := by omega
      have hnot : x ∉ ws := by
        intro hm
        exact (List.nodup_append.1 hn).2.2 x (List.mem_filter.2 ⟨hm, by simpa using hlt⟩) x (by simp [hlt]) rfl
      exact (tally_set hlt (by simpa using hnot) (by simp) fun i hi => by simp [hi]).symm

/-- C16: if no wave is acknowledged twice, the sender reports completion on exactly that acknowledgement with which every wave
has been acknowledged. Acknowledgements of unknown waves change nothing. -/
theorem C16_complete_iff_all_acked_partial {c : Cfg} (hc : Consistent c) (ws : List Nat) (x : Nat)
    (hn : ((ws ++ [x]).filter (· < c.waveCount)).Nodup) :
    (onAck c (ackCount c ws) x).2 = true ↔ x < c.waveCount ∧ ∀ i < c.waveCount, i ∈ ws ++ [x] := by
  have h := ackCount_tally c (ws ++ [x]) hn
  unfold ackCount at h
  rw [List.foldl_append, List.foldl_cons, List.foldl_nil] at h
  change (onAck c (ackCount c ws) x).1 = _ at h
  unfold onAck at h ⊢
  split
  · next hx => simp; omega
  · next hx =>
    rw [if_neg hx] at h
    dsimp only at h ⊢
    rw [decide_eq_true_eq, h, hc.sum, tally_sum, tally_eq_all hc.pos]
    simp only [decide_eq_true_eq]
    exact ⟨fun hh => ⟨by omega, hh⟩, fun hh => hh.2⟩

/-- The wave a receiver acknowledges on a status. -/
def ackOf : Status → Option Nat
  | .waveComplete i => some i
  | .groupComplete i => some i
  | _ => none

theorem count_acks (ss : List Status) (i : Nat) : (ss.filterMap ackOf).count i = (ss.filter (endsWave i)).length := by
  induction ss with
  | nil => rfl
  | cons s ss ih =>
    cases s <;> simp [ackOf, endsWave, List.filterMap_cons, List.filter_cons, List.count_cons, ih] <;> split <;> simp_all

/-- C16, both ends together: whatever packets reach a receiver, its acknowledgements never name a wave twice. -/
theorem C16_receiver_acks_once (dec : Bytes → Option Bytes) (c : Cfg) (ps : List Packet) :
    ((deliver dec (newRecv c) ps).2.filterMap ackOf).Nodup := by
  rw [List.nodup_iff_count_le_one]
  intro i
  rw [count_acks]
  exact (C14_finishes_once dec c ps).1 i

/-- C16, both ends together: whatever packets reach the receiver, if its acknowledgements reach the sender in any order, the
sender reports completion exactly when every wave has been reported complete. -/
theorem C16_end_to_end_partial {c : Cfg} (hc : Consistent c) (dec : Bytes → Option Bytes) (ps : List Packet)
    (ws : List Nat) (x : Nat) (hperm : (ws ++ [x]).Perm ((deliver dec (newRecv c) ps).2.filterMap ackOf)) :
    (onAck c (ackCount c ws) x).2 = true ↔
      x < c.waveCount ∧ ∀ i < c.waveCount, ∃ s ∈ (deliver dec (newRecv c) ps).2, endsWave i s = true := by
  have hn : (ws ++ [x]).Nodup := hperm.nodup_iff.2 (C16_receiver_acks_once dec c ps)
  rw [C16_complete_iff_all_acked_partial hc ws x (hn.filter _)]
  refine and_congr_right fun _ => forall_congr' fun i => imp_congr_right fun _ => ?_
  rw [hperm.mem_iff, List.mem_filterMap]
  refine exists_congr fun s => and_congr_right fun _ => ?_
  cases s <;> simp [ackOf, endsWave]

/-- An honest description of a file whose length is no multiple of the wave size is consistent. -/
theorem consistent_refresh {n M full maxPlain lastPlain w ctLast : Nat} {e : Bool} (hM : 0 < M) (hw : 0 < w)
    (hct : 0 < ctLast) : Consistent (newRefresh n M full 1 maxPlain lastPlain w ctLast e) := by
  have hin : 0 < divCeil ctLast M := by rw [lt_divCeil hM]; simpa using hct
  have hp : ∀ i, packetsInWave (newRefresh n M full 1 maxPlain lastPlain w ctLast e) i =
      if i = full then divCeil ctLast M else w := fun i => rfl
  have hN : (newRefresh n M full 1 maxPlain lastPlain w ctLast e).waveCount = full + 1 := rfl
  refine ⟨?_, fun i hi => by rw [hp]; split <;> assumption⟩
  rw [hN, List.range_succ, List.map_append, List.sum_append]
  show full * w + divCeil ctLast M = _
  have : ∀ k, k ≤ full → ((List.range k).map
      (packetsInWave (newRefresh n M full 1 maxPlain lastPlain w ctLast e))).sum = k * w := by
    intro k
    induction k with
    | zero => intro _; simp
    | succ k ih =>
      intro hk
      rw [List.range_succ, List.map_append, List.sum_append, ih (by omega), Nat.succ_mul]
      congr 1
      simp only [List.map_cons, List.map_nil, List.sum_cons, List.sum_nil, Nat.add_zero]
      rw [hp, if_neg (by omega)]
  rw [this full (Nat.le_refl _)]
  simp [hp]

/-- C16 for file transfers with a symmetric algorithm, when the receiver accepts the description. -/
theorem C16_file_transfer_consistent {n : Nat} (hn : 0 < n) (hz : n % 7032 ≠ 0) (e : Bool) :
    ∃ c, metadata symCt 14 n e = some c ∧ Consistent c := by
  refine ⟨_, sym_metadata hn e, ?_⟩
  rw [if_neg hz]
  exact consistent_refresh (by omega) (by omega) (by rw [if_neg hz]; omega)

/-- C16 is false: acknowledgements carry no proof of novelty; repeated ones complete the transfer without wave 1. -/
theorem C16_counterexample_repeated :
    let c : Cfg := { packetsNeeded := 6, maxPackets := 2, plainLen := 6, maxPayload := 1, lastPayload := 1, fullWaves := 2
                     partialWaves := 1, waveCount := 3, maxPlain := 2, lastPlain := 2, packetsInLast := 2, emptyTransfer := false }
    Consistent c ∧ acks c 0 [0, 0, 2] = [false, false, true] ∧ acks c 0 [0, 0, 1, 2] = [false, false, true, false] ∧
      acks c 0 [0, 0, 0, 0, 1, 2] = [false, false, true, false, false, false] := by
  refine ⟨⟨by decide, by decide⟩, by decide, by decide, by decide⟩

/-- C16 is false for a locally pre-encrypted transfer whose length is a multiple of the wave size: the announced number of
packets counts the last wave twice, so no acknowledgements, short of repeated ones, ever complete it. -/
theorem C16_counterexample_multiple {enc : Nat → Bytes → Bytes} {dec : Bytes → Option Bytes} (hsym : Symmetric enc dec)
    {plain : Bytes} (hn : 0 < plain.length) (hz : plain.length % 7032 = 0) {e : Bool} {c : Cfg} {ps : List Packet}
    (hs : sendGroup symCt 14 enc false plain e = some (c, ps)) (ws : List Nat) (x : Nat) (hnd : (ws ++ [x]).Nodup) :
    (onAck c (ackCount c ws) x).2 = false := by
  obtain ⟨_, _, hc⟩ := send_spec (by omega) hn hsym.fits (fun hf => by cases hf) hs
  have h := ackCount_tally c (ws ++ [x]) (hnd.filter _)
  unfold ackCount at h
  rw [List.foldl_append, List.foldl_cons, List.foldl_nil] at h
  change (onAck c (ackCount c ws) x).1 = _ at h
  have hle := tally_le_all (fun i => decide (i ∈ ws ++ [x])) (packetsInWave c) c.waveCount
  have hk : 0 < plain.length / 7032 := Nat.div_pos (Nat.le_of_dvd hn (Nat.dvd_of_mod_eq_zero hz)) (by omega)
  have g0 : c.maxPlain = waveSize symCt 14 := by rw [hc]; rfl
  have hP := waveSize_pos (ctLen := symCt) (w := 14) (by omega)
  have hN : 0 < divCeil plain.length (waveSize symCt 14) := by rw [lt_divCeil hP]; simpa using hn
  have hb := enc_le hsym.fits hP (plain := plain) (i := divCeil plain.length (waveSize symCt 14) - 1) (by omega)
  generalize hL : (ctOf c enc plain (divCeil plain.length (waveSize symCt 14) - 1)).length = L at hc
  rw [ctOf, g0] at hL
  rw [hL, sym_sizes.1] at hb
  rw [sym_sizes.1, sym_sizes.2, if_pos hz, if_pos hz] at hc
  have hin : 0 < divCeil L 504 := by rw [lt_divCeil (by omega)]; omega
  have hin2 : divCeil L 504 ≤ 14 := by
    have : ¬ 14 < divCeil L 504 := by rw [lt_divCeil (by omega)]; omega
    omega
  have g1 : c.waveCount = plain.length / 7032 := by rw [hc]; rfl
  have g2 : c.packetsNeeded = plain.length / 7032 * 14 + divCeil L 504 := by rw [hc]; rfl
  have g3 : ∀ i, packetsInWave c i ≤ 14 := by
    intro i
    have e1 : c.packetsInLast = divCeil L 504 := by rw [hc]; rfl
    have e2 : c.maxPackets = 14 := by rw [hc]; rfl
    unfold packetsInWave
    split <;> omega
  have g4 : ∀ k, tally (fun _ => true) (packetsInWave c) k ≤ k * 14 := by
    intro k
    induction k with
    | zero => exact Nat.zero_le _
    | succ k ih =>
      simp only [tally, if_true]
      have := g3 k
      omega
  have g5 := g4 c.waveCount
  rw [g1] at g5 hle h
  unfold onAck at h ⊢
  split
  · rfl
  · next hx =>
    rw [if_neg hx] at h
    dsimp only at h ⊢
    rw [decide_eq_false_iff_not, h, g2]
    omega

end Verif.Splitter

import Verif.Splitter.Lemmas
/-
The receiver fed with arbitrary packets.
-/
namespace Verif.Splitter
open Verif

variable {dec : Bytes → Option Bytes}

theorem onPacket_cfg (r : Recv) (p : Packet) : (onPacket dec r p).1.cfg = r.cfg := by
  unfold onPacket
  split
  · split
    · rfl
    · dsimp only
      split
      · rfl
      · split
        · rfl
        · split
          · unfold finishWave
            dsimp only
            split
            · rfl
            · split
              · rfl
              · split
                · split <;> rfl
                · rfl
          · rfl
  · rfl

theorem deliver_cfg (ps : List Packet) (r : Recv) : (deliver dec r ps).1.cfg = r.cfg := by
  induction ps generalizing r with
  | nil => rfl
  | cons p ps ih => simp only [deliver]; rw [ih, onPacket_cfg]

theorem deliver_append (r : Recv) (xs ys : List Packet) :
    deliver dec r (xs ++ ys) = ((deliver dec (deliver dec r xs).1 ys).1, (deliver dec r xs).2 ++ (deliver dec (deliver dec r xs).1 ys).2) := by
  induction xs generalizing r with
  | nil => simp [deliver]
  | cons x xs ih => simp [deliver, ih]

/-- A repeated packet. -/
theorem onPacket_already {r : Recv} {p : Packet} (h1 : p.seq < r.cfg.packetsNeeded) (h2 : r.got p.seq = true) :
    onPacket dec r p = (r, .already) := by
  unfold onPacket; rw [if_pos h1, if_pos h2]

theorem finishWave_got (r : Recv) (i : Nat) (v : Wave) :
    (finishWave dec r i v).1.got = r.got ∧ (finishWave dec r i v).1.received = r.received := by
  unfold finishWave
  dsimp only
  split
  · exact ⟨rfl, rfl⟩
  · split
    · exact ⟨rfl, rfl⟩
    · split
      · split <;> exact ⟨rfl, rfl⟩
      · exact ⟨rfl, rfl⟩

theorem onPacket_got (r : Recv) (p : Packet) :
    (onPacket dec r p).1.got = (if p.seq < r.cfg.packetsNeeded then setFn r.got p.seq true else r.got) ∧
    (onPacket dec r p).1.received =
      r.received + if p.seq < r.cfg.packetsNeeded ∧ r.got p.seq = false then 1 else 0 := by
  unfold onPacket
  by_cases h1 : p.seq < r.cfg.packetsNeeded
  · rw [if_pos h1, if_pos h1]
    by_cases h2 : r.got p.seq = true
    · rw [if_pos h2, setFn_self h2, if_neg (by simp [h2])]; exact ⟨rfl, rfl⟩
    · rw [if_neg h2, if_pos ⟨h1, by simpa using h2⟩]
      dsimp only
      split
      · exact ⟨rfl, rfl⟩
      · split
        · exact ⟨rfl, rfl⟩
        · split
          · exact ⟨(finishWave_got _ _ _).1, (finishWave_got _ _ _).2⟩
          · exact ⟨rfl, rfl⟩
  · rw [if_neg h1, if_neg h1, if_neg (by simp [h1])]; exact ⟨rfl, rfl⟩

theorem deliver_got (ps : List Packet) : ∀ r : Recv, ∀ s < r.cfg.packetsNeeded,
    ((deliver dec r ps).1.got s = true ↔ r.got s = true ∨ ∃ p ∈ ps, p.seq = s) := by
  induction ps with
  | nil => intro r s _; simp [deliver]
  | cons p ps ih =>
    intro r s hs
    simp only [deliver]
    rw [ih _ s (by rw [onPacket_cfg]; exact hs), (onPacket_got r p).1]
    by_cases hp : p.seq = s
    · rw [if_pos (by omega), hp, setFn_same]; simp [hp]
    · have : (if p.seq < r.cfg.packetsNeeded then setFn r.got p.seq true else r.got) s = r.got s := by
        split
        · exact setFn_ne (fun e => hp e.symm)
        · rfl
      rw [this]; simp [hp]

theorem deliver_received (ps : List Packet) : ∀ r : Recv,
    r.received = tally r.got (fun _ => 1) r.cfg.packetsNeeded →
    (deliver dec r ps).1.received = tally (deliver dec r ps).1.got (fun _ => 1) r.cfg.packetsNeeded := by
  induction ps with
  | nil => intro r h; exact h
  | cons p ps ih =>
    intro r h
    simp only [deliver]
    have := ih (onPacket dec r p).1 ?_
    · rw [onPacket_cfg] at this; exact this
    · rw [onPacket_cfg, (onPacket_got r p).1, (onPacket_got r p).2, h]
      by_cases h1 : p.seq < r.cfg.packetsNeeded
      · rw [if_pos h1]
        by_cases h2 : r.got p.seq = true
        · rw [setFn_self h2, if_neg (by simp [h2]), Nat.add_zero]
        · have h2' : r.got p.seq = false := by simpa using h2
          rw [if_pos ⟨h1, h2'⟩]
          exact (tally_set h1 h2' (setFn_same _ _ _) fun i hi => setFn_ne hi).symm
      · rw [if_neg h1, if_neg (by simp [h1]), Nat.add_zero]

/-! ### Waves end once -/

/-- A wave that is gone stays gone and is not reported again; a reported wave is gone. -/
theorem onPacket_store (r : Recv) (p : Packet) (i : Nat) :
    (r.store i = none → (onPacket dec r p).1.store i = none ∧ endsWave i (onPacket dec r p).2 = false) ∧
    (endsWave i (onPacket dec r p).2 = true → (onPacket dec r p).1.store i = none) := by
  unfold onPacket
  split
  · split
    · exact ⟨fun h => ⟨h, by simp [endsWave]⟩, fun h => by simp [endsWave] at h⟩
    · dsimp only
      split
      · exact ⟨fun h => ⟨h, by simp [endsWave]⟩, fun h => by simp [endsWave] at h⟩
      · next v hv =>
        split
        · next s hs =>
          have hnot : endsWave i s = false := by
            unfold insertPacket at hs
            split at hs
            · cases hs; simp [endsWave]
            · split at hs
              · split at hs
                · cases hs; simp [endsWave]
                · split at hs
                  · cases hs; simp [endsWave]
                  · cases hs
              · cases hs; simp [endsWave]
          exact ⟨fun h => ⟨h, hnot⟩, fun h => by rw [hnot] at h; cases h⟩
        · next v' hv' =>
          have hfin : ∀ (x : Recv), x.store = setFn r.store p.wave (some v') →
              (finishWave dec x p.wave v').1.store = setFn r.store p.wave none ∧
              (endsWave i (finishWave dec x p.wave v').2 = true → i = p.wave) := by
            intro x hx
            have hss : setFn x.store p.wave none = setFn r.store p.wave none := by
              rw [hx]; funext n; unfold setFn; split <;> rfl
            unfold finishWave
            dsimp only
            split
            · exact ⟨hss, fun h => by simp [endsWave] at h⟩
            · split
              · exact ⟨hss, fun h => by simp [endsWave] at h⟩
              · split
                · split
                  · exact ⟨hss, fun h => by simp [endsWave] at h⟩
                  · exact ⟨hss, fun h => by simp [endsWave] at h; exact h.symm⟩
                · exact ⟨hss, fun h => by simp [endsWave] at h; exact h.symm⟩
          split
          · have hx := hfin { r with
              got := setFn r.got p.seq true, received := r.received + 1, store := setFn r.store p.wave (some v') } rfl
            refine ⟨fun h => ?_, fun h => ?_⟩
            · have hne : i ≠ p.wave := by intro e; rw [e, hv] at h; cases h
              refine ⟨by rw [hx.1, setFn_ne hne]; exact h, ?_⟩
              rw [Bool.eq_false_iff]; intro he; exact hne (hx.2 he)
            · rw [hx.1, hx.2 h, setFn_same]
          · refine ⟨fun h => ?_, fun h => by simp [endsWave] at h⟩
            have hne : i ≠ p.wave := by intro e; rw [e, hv] at h; cases h
            exact ⟨by dsimp only; rw [setFn_ne hne]; exact h, by simp [endsWave]⟩
  · exact ⟨fun h => ⟨h, by simp [endsWave]⟩, fun h => by simp [endsWave] at h⟩

theorem deliver_gone (ps : List Packet) (i : Nat) : ∀ r : Recv, r.store i = none →
    (deliver dec r ps).1.store i = none ∧ (deliver dec r ps).2.filter (endsWave i) = [] := by
  induction ps with
  | nil => intro r h; exact ⟨h, rfl⟩
  | cons p ps ih =>
    intro r h
    have h1 := (onPacket_store (dec := dec) r p i).1 h
    have h2 := ih _ h1.1
    simp only [deliver, List.filter_cons, h1.2]
    exact h2

theorem deliver_once (ps : List Packet) (i : Nat) : ∀ r : Recv,
    ((deliver dec r ps).2.filter (endsWave i)).length ≤ 1 := by
  induction ps with
  | nil => intro r; simp [deliver]
  | cons p ps ih =>
    intro r
    simp only [deliver, List.filter_cons]
    split
    · next he =>
      have := (deliver_gone (dec := dec) ps i _ ((onPacket_store r p i).2 he)).2
      rw [this]; simp
    · exact ih _

/-- The receiver has no wave left and has written as many bytes as expected. -/
def Finished (r : Recv) : Prop := (∀ i < r.cfg.waveCount, r.store i = none) ∧ r.plainWritten = r.slab.length

theorem onPacket_finished {r : Recv} {p : Packet} (hout : ∀ i, r.cfg.waveCount ≤ i → r.store i = none) (h : Finished r) :
    (onPacket dec r p).1.store = r.store ∧ (onPacket dec r p).1.slab = r.slab ∧
      (onPacket dec r p).1.plainWritten = r.plainWritten ∧ endsGroup (onPacket dec r p).2 = false := by
  have hn : r.store p.wave = none := by
    by_cases hi : p.wave < r.cfg.waveCount
    · exact h.1 _ hi
    · exact hout _ (by omega)
  unfold onPacket
  split
  · split
    · exact ⟨rfl, rfl, rfl, rfl⟩
    · dsimp only
      rw [hn]
      exact ⟨rfl, rfl, rfl, rfl⟩
  · exact ⟨rfl, rfl, rfl, rfl⟩

theorem onPacket_ends {r : Recv} {p : Packet} (h : endsGroup (onPacket dec r p).2 = true) :
    Finished (onPacket dec r p).1 := by
  revert h
  unfold onPacket
  split
  · split
    · intro h; cases h
    · dsimp only
      split
      · intro h; cases h
      · split
        · next s hs =>
          intro h
          exfalso
          unfold insertPacket at hs
          split at hs
          · cases hs; cases h
          · split at hs
            · split at hs
              · cases hs; cases h
              · split at hs
                · cases hs; cases h
                · cases hs
            · cases hs; cases h
        · split
          · unfold finishWave
            dsimp only
            split
            · intro h; cases h
            · split
              · intro h; cases h
              · split
                · next he =>
                  split
                  · intro h; cases h
                  · next hw =>
                    intro _
                    refine ⟨fun i hi => ?_, not_not.1 hw⟩
                    have := List.all_eq_true.1 he i (List.mem_range.2 hi)
                    exact Option.isNone_iff_eq_none.1 this
                · intro h; cases h
          · intro h; cases h
  · intro h; cases h

/-- Waves beyond the announced count never appear. -/
theorem deliver_out (ps : List Packet) (r : Recv) (i : Nat) (h : r.store i = none) : (deliver dec r ps).1.store i = none :=
  (deliver_gone ps i r h).1

theorem deliver_finished (ps : List Packet) : ∀ r : Recv, (∀ i, r.cfg.waveCount ≤ i → r.store i = none) → Finished r →
    Finished (deliver dec r ps).1 ∧ (deliver dec r ps).1.slab = r.slab ∧ (deliver dec r ps).2.filter endsGroup = [] := by
  induction ps with
  | nil => intro r _ h; exact ⟨h, rfl, rfl⟩
  | cons p ps ih =>
    intro r ho h
    obtain ⟨h1, h2, h3, h4⟩ := onPacket_finished (dec := dec) (p := p) ho h
    have := ih (onPacket dec r p).1 (by rw [onPacket_cfg, h1]; exact ho)
      ⟨by rw [onPacket_cfg, h1]; exact h.1, by rw [h3, h2]; exact h.2⟩
    simp only [deliver, List.filter_cons, h4]
    exact ⟨this.1, by rw [this.2.1, h2], this.2.2⟩

theorem deliver_ends (ps : List Packet) : ∀ r : Recv, (∀ i, r.cfg.waveCount ≤ i → r.store i = none) →
    ((deliver dec r ps).2.filter endsGroup).length ≤ 1 ∧
      ((∃ s ∈ (deliver dec r ps).2, endsGroup s = true) → Finished (deliver dec r ps).1) := by
  induction ps with
  | nil => intro r _; simp [deliver]
  | cons p ps ih =>
    intro r ho
    have ho' : ∀ i, (onPacket dec r p).1.cfg.waveCount ≤ i → (onPacket dec r p).1.store i = none := by
      intro i hi; rw [onPacket_cfg] at hi; exact ((onPacket_store r p i).1 (ho i hi)).1
    simp only [deliver, List.filter_cons]
    by_cases he : endsGroup (onPacket dec r p).2 = true
    · have := deliver_finished (dec := dec) ps _ ho' (onPacket_ends he)
      rw [if_pos he, this.2.2]
      exact ⟨by simp, fun _ => this.1⟩
    · rw [if_neg he]
      refine ⟨(ih _ ho').1, ?_⟩
      rintro ⟨s, hs, h⟩
      rcases List.mem_cons.1 hs with hs | hs
      · rw [hs] at h; exact absurd h he
      · exact (ih _ ho').2 ⟨s, hs, h⟩

/-! ### What the slab contains -/

/-- `y i` is the decrypted content of wave `i`, if it was decrypted and placed. -/
structure HInv (c : Cfg) (dec : Bytes → Option Bytes) (r : Recv) (y : Nat → Option Bytes) : Prop where
  cfg : r.cfg = c
  slabLen : r.slab.length = c.plainLen
  buf : ∀ i v, r.store i = some v → v.buf.length = (newWave c i).buf.length
  out : ∀ i v, r.store i = some v → i < c.waveCount
  placed : ∀ i b, y i = some b → i < c.waveCount ∧ r.store i = none ∧ (∃ x, dec x = some b) ∧ b.length ≤ c.maxPlain ∧
    i * c.maxPlain + b.length ≤ c.plainLen ∧ ∀ q < b.length, r.slab[i * c.maxPlain + q]? = b[q]?
  written : r.plainWritten = tally (fun i => (y i).isSome) (fun i => ((y i).getD []).length) c.waveCount

theorem hinv_init (c : Cfg) : HInv c dec (newRecv c) (fun _ => none) where
  cfg := rfl
  slabLen := by simp [newRecv]
  buf i v h := by
    simp only [newRecv] at h
    split at h
    · cases h; rfl
    · cases h
  out i v h := by
    simp only [newRecv] at h
    split at h
    · assumption
    · cases h
  placed i b h := by cases h
  written := (tally_false _ _).symm

theorem tally_isSome (y : Nat → Option Bytes) (k : Nat) :
    tally (fun i => (y i).isSome) (fun i => ((y i).getD []).length) k =
      tally (fun _ => true) (fun i => ((y i).getD []).length) k := by
  induction k with
  | zero => rfl
  | succ k ih =>
    simp only [tally, if_true]
    rw [ih]
    cases h : y k <;> simp

theorem tally_mono_congr {a b : Nat → Nat} {k : Nat} (h : ∀ i < k, a i = b i) :
    tally (fun _ => true) a k = tally (fun _ => true) b k := by
  induction k with
  | zero => rfl
  | succ k ih => simp only [tally, if_true]; rw [ih fun i hi => h i (by omega), h k (by omega)]

theorem tally_set_val {a b : Nat → Nat} {k j : Nat} (hj : j < k) (ha : a j = 0) (h : ∀ i, i ≠ j → b i = a i) :
    tally (fun _ => true) b k = tally (fun _ => true) a k + b j := by
  induction k with
  | zero => omega
  | succ k ih =>
    simp only [tally, if_true]
    by_cases hk : j = k
    · subst hk
      rw [tally_mono_congr (a := b) (b := a) fun i hi => h i (by omega), ha]
      omega
    · rw [ih (by omega), h k (by omega)]; omega

theorem hinv_finish {c : Cfg} {r : Recv} {y : Nat → Option Bytes} (h : HInv c dec r y) (hcov : c.plainLen ≤ c.waveCount * c.maxPlain)
    (hstride : ∀ x b, x.length ≤ c.maxPayload * c.maxPackets → dec x = some b → b.length ≤ c.maxPlain)
    {i : Nat} {v : Wave} (hi : r.store i = some v) :
    ∃ y', HInv c dec (finishWave dec r i v).1 y' := by
  have hiN := h.out i v hi
  have hyi : y i = none := by
    cases hy : y i with
    | none => rfl
    | some b => have := (h.placed i b hy).2.1; rw [hi] at this; cases this
  have hbuf' : ∀ n v', setFn r.store i none n = some v' → r.store n = some v' := by
    intro n v' hn; unfold setFn at hn; split at hn
    · cases hn
    · exact hn
  have hplaced : ∀ n b, y n = some b → n < c.waveCount ∧ setFn r.store i none n = none ∧ (∃ x, dec x = some b) ∧
      b.length ≤ c.maxPlain ∧ n * c.maxPlain + b.length ≤ c.plainLen ∧
      ∀ q < b.length, r.slab[n * c.maxPlain + q]? = b[q]? := by
    intro n b hn
    obtain ⟨h1, h2, h3⟩ := h.placed n b hn
    refine ⟨h1, ?_, h3⟩
    unfold setFn; split
    · rfl
    · exact h2
  have hsame : HInv c dec { r with store := setFn r.store i none } y :=
    ⟨h.cfg, h.slabLen, fun n v' hn => h.buf n v' (hbuf' n v' hn), fun n v' hn => h.out n v' (hbuf' n v' hn), hplaced, h.written⟩
  unfold finishWave
  dsimp only
  cases hd : dec (v.buf.take v.written) with
  | none => exact ⟨y, hsame⟩
  | some plain =>
    dsimp only
    split
    · exact ⟨y, hsame⟩
    · next hfit =>
      rw [h.slabLen, h.cfg] at hfit
      have hle : plain.length ≤ c.maxPlain := by
        by_cases hlast : i = c.waveCount - 1
        · have : c.waveCount * c.maxPlain = (c.waveCount - 1) * c.maxPlain + c.maxPlain := by
            rw [← Nat.succ_mul]; congr 1; omega
          rw [← hlast] at this
          omega
        · refine hstride (v.buf.take v.written) plain ?_ hd
          have := h.buf i v hi
          unfold newWave at this
          rw [if_neg hlast] at this
          simp only [List.length_replicate] at this
          rw [List.length_take, this]
          exact Nat.min_le_right _ _
      have hinv : ∀ x : Recv, x.cfg = c → x.slab = splice r.slab (i * r.cfg.maxPlain) plain →
          x.store = setFn r.store i none → x.plainWritten = r.plainWritten + plain.length →
          HInv c dec x (setFn y i (some plain)) := by
        intro x x1 x2 x3 x4
        have hspl : i * c.maxPlain + plain.length ≤ r.slab.length := by rw [h.slabLen]; omega
        refine ⟨x1, ?_, ?_, ?_, ?_, ?_⟩
        · rw [x2, h.cfg, length_splice hspl, h.slabLen]
        · intro n v' hn; rw [x3] at hn; exact h.buf n v' (hbuf' n v' hn)
        · intro n v' hn; rw [x3] at hn; exact h.out n v' (hbuf' n v' hn)
        · intro n b hn
          rw [x2, x3, h.cfg]
          by_cases hni : n = i
          · subst hni
            rw [setFn_same] at hn
            cases hn
            refine ⟨hiN, setFn_same _ _ _, ⟨_, hd⟩, hle, by omega, ?_⟩
            intro q hq
            rw [getElem?_splice hspl, if_pos (by omega)]
            congr 1
            omega
          · rw [setFn_ne hni] at hn
            obtain ⟨p1, p2, p3, p4, p5, p6⟩ := hplaced n b hn
            refine ⟨p1, p2, p3, p4, p5, ?_⟩
            intro q hq
            rw [getElem?_splice hspl, if_neg ?_]
            · exact p6 q hq
            · rintro ⟨a1, a2⟩
              rcases Nat.lt_or_gt_of_ne hni with hlt | hgt
              · have : (n + 1) * c.maxPlain ≤ i * c.maxPlain := Nat.mul_le_mul_right _ hlt
                rw [Nat.add_mul] at this
                omega
              · have : (i + 1) * c.maxPlain ≤ n * c.maxPlain := Nat.mul_le_mul_right _ hgt
                rw [Nat.add_mul] at this
                omega
        · rw [x4, h.written, tally_isSome, tally_isSome]
          rw [tally_set_val (a := fun i => ((y i).getD []).length) (b := fun n => ((setFn y i (some plain) n).getD []).length) hiN (by rw [hyi]; rfl) fun n hn => by rw [setFn_ne hn],
            setFn_same]
          rfl
      refine ⟨setFn y i (some plain), ?_⟩
      split
      · split
        · exact hinv _ h.cfg rfl rfl rfl
        · exact hinv _ h.cfg rfl rfl rfl
      · exact hinv _ h.cfg rfl rfl rfl

theorem insertPacket_ok {c : Cfg} {seq : Nat} {v v' : Wave} {payload : Bytes} (h : insertPacket c seq v payload = .ok v') :
    v'.buf.length = v.buf.length ∧ v'.inWave = v.inWave ∧ v'.received = v.received + 1 := by
  unfold insertPacket at h
  split at h
  · cases h
  · next a b hab =>
    split at h
    · split at h
      · cases h
      · next h1 =>
        split at h
        · cases h
        · next h2 =>
          cases h
          exact ⟨length_splice (by omega), rfl, rfl⟩
    · cases h

theorem hinv_step {c : Cfg} {r : Recv} {y : Nat → Option Bytes} (h : HInv c dec r y) (hcov : c.plainLen ≤ c.waveCount * c.maxPlain)
    (hstride : ∀ x b, x.length ≤ c.maxPayload * c.maxPackets → dec x = some b → b.length ≤ c.maxPlain) (p : Packet) :
    ∃ y', HInv c dec (onPacket dec r p).1 y' := by
  unfold onPacket
  split
  · split
    · exact ⟨y, h⟩
    · dsimp only
      split
      · exact ⟨y, h.cfg, h.slabLen, h.buf, h.out, h.placed, h.written⟩
      · next v hv =>
        split
        · exact ⟨y, h.cfg, h.slabLen, h.buf, h.out, h.placed, h.written⟩
        · next v' hv' =>
          have hlen := (insertPacket_ok hv').1
          have hx : HInv c dec { r with got := setFn r.got p.seq true, received := r.received + 1, store := setFn r.store p.wave (some v') } y := by
            refine ⟨h.cfg, h.slabLen, ?_, ?_, ?_, h.written⟩
            · intro n u hn
              dsimp only at hn
              by_cases hnp : n = p.wave
              · subst hnp; rw [setFn_same] at hn; cases hn; rw [hlen]; exact h.buf _ _ hv
              · rw [setFn_ne hnp] at hn; exact h.buf n u hn
            · intro n u hn
              dsimp only at hn
              by_cases hnp : n = p.wave
              · subst hnp; exact h.out _ _ hv
              · rw [setFn_ne hnp] at hn; exact h.out n u hn
            · intro n b hn
              obtain ⟨p1, p2, p3⟩ := h.placed n b hn
              have hnp : n ≠ p.wave := by intro e; rw [e, hv] at p2; cases p2
              exact ⟨p1, by dsimp only; rw [setFn_ne hnp]; exact p2, p3⟩
          split
          · exact hinv_finish hx hcov hstride (setFn_same _ _ _)
          · exact ⟨y, hx⟩
  · exact ⟨y, h⟩

theorem hinv_deliver {c : Cfg} (hcov : c.plainLen ≤ c.waveCount * c.maxPlain)
    (hstride : ∀ x b, x.length ≤ c.maxPayload * c.maxPackets → dec x = some b → b.length ≤ c.maxPlain) (ps : List Packet) :
    ∀ (r : Recv) (y : Nat → Option Bytes), HInv c dec r y → ∃ y', HInv c dec (deliver dec r ps).1 y' := by
  induction ps with
  | nil => intro r y h; exact ⟨y, h⟩
  | cons p ps ih =>
    intro r y h
    obtain ⟨y', h'⟩ := hinv_step h hcov hstride p
    exact ih _ y' h'

theorem tally_eq_of_le {a b : Nat → Nat} {k : Nat} (hle : ∀ i < k, a i ≤ b i)
    (h : tally (fun _ => true) a k = tally (fun _ => true) b k) : ∀ i < k, a i = b i := by
  have hmono : ∀ k, (∀ i < k, a i ≤ b i) → tally (fun _ => true) a k ≤ tally (fun _ => true) b k := by
    intro k
    induction k with
    | zero => intro _; exact Nat.le_refl _
    | succ k ih =>
      intro hh
      simp only [tally, if_true]
      have := ih fun i hi => hh i (by omega)
      have := hh k (by omega)
      omega
  induction k with
  | zero => intro i hi; omega
  | succ k ih =>
    simp only [tally, if_true] at h
    have h1 := hmono k fun i hi => hle i (by omega)
    have h2 := hle k (by omega)
    intro i hi
    by_cases hk : i = k
    · subst hk; omega
    · exact ih (fun j hj => hle j (by omega)) (by omega) i (by omega)

/-- Every window of a finished slab is the content of one decrypted wave. -/
theorem finished_windows {c : Cfg} {r : Recv} {y : Nat → Option Bytes} (h : HInv c dec r y)
    (hcov : c.plainLen ≤ c.waveCount * c.maxPlain) (hf : Finished r) :
    ∀ i, i < c.waveCount → i * c.maxPlain < c.plainLen → ∃ x, dec x = some (chunk c.maxPlain r.slab i) := by
  have hle : ∀ i < c.waveCount, ((y i).getD []).length ≤ (chunk c.maxPlain r.slab i).length := by
    intro i _
    cases hy : y i with
    | none => simp
    | some b =>
      obtain ⟨_, _, _, h4, h5, _⟩ := h.placed i b hy
      rw [length_chunk, h.slabLen, Option.getD_some]
      omega
  have hsum : tally (fun _ => true) (fun i => ((y i).getD []).length) c.waveCount =
      tally (fun _ => true) (fun i => (chunk c.maxPlain r.slab i).length) c.waveCount := by
    rw [← tally_isSome, ← h.written, hf.2, tally_chunks, h.slabLen]
    omega
  have heq := tally_eq_of_le hle hsum
  intro i hi hpos
  have hi' := heq i hi
  rw [length_chunk, h.slabLen] at hi'
  cases hy : y i with
  | none =>
    rw [hy] at hi'
    simp only [Option.getD_none, List.length_nil] at hi'
    exfalso
    rcases Nat.eq_zero_or_pos c.maxPlain with hz | hz
    · rw [hz] at hcov hpos; omega
    · omega
  | some b =>
    obtain ⟨_, _, ⟨x, hx⟩, h4, h5, h6⟩ := h.placed i b hy
    rw [hy, Option.getD_some] at hi'
    refine ⟨x, ?_⟩
    rw [hx]
    congr 1
    apply List.ext_getElem?
    intro q
    by_cases hq : q < b.length
    · rw [getElem?_chunk (by omega), h6 q hq]
    · rw [List.getElem?_eq_none (by omega), List.getElem?_eq_none (by rw [length_chunk, h.slabLen]; omega)]

end Verif.Splitter

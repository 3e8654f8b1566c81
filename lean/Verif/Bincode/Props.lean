import Verif.Bincode.Cost
namespace Verif.Bincode

/-! ### C181: what is written is read -/

theorem plain_iff (c : Conf) (t : Ty) (input : Bytes) (lim : Option Nat) (hl : lim = none ∨ lim = some input.length) (v : Val t) :
    (decode c t { rest := input, lim := lim }).1 = some v ↔ encode t v <+: input := by
  constructor
  · intro h
    have := decode_sound c t { rest := input, lim := lim } _ v (Prod.ext h rfl)
    exact ⟨_, this.1.symm⟩
  · rintro ⟨r, hr⟩
    have : Fits (encode t v) { rest := input, lim := lim } := by
      refine ⟨⟨r, hr.symm⟩, fun l e => ?_⟩
      rcases hl with hl | hl
      · rw [show ({ rest := input, lim := lim } : St).lim = none from hl] at e; exact absurd e (by simp)
      · rw [show ({ rest := input, lim := lim } : St).lim = some input.length from hl] at e
        simp only [Option.some.injEq] at e
        rw [← e, ← hr, List.length_append]
        omega
    obtain ⟨s', h'⟩ := decode_complete c t _ v this
    rw [h']

/-- A value is read back from what was written, with either reader, also if other bytes follow. The limit refuses nothing that was
written. -/
theorem C181_roundtrip (size : Ty → Nat) (t : Ty) (v : Val t) (more : Bytes) :
    fromVector size t (encode t v ++ more) = some v ∧ fromOwned size t (encode t v ++ more) = some v ∧
    plain size t (encode t v ++ more) = some v :=
  ⟨(plain_iff _ t _ _ (.inr rfl) v).mpr ⟨more, rfl⟩, (plain_iff _ t _ _ (.inr rfl) v).mpr ⟨more, rfl⟩,
    (plain_iff _ t _ _ (.inl rfl) v).mpr ⟨more, rfl⟩⟩

/-- Two values that are written alike, up to what follows, are the same: no encoding is the beginning of another. -/
theorem C181_prefix_free (t : Ty) (v w : Val t) (h : encode t v <+: encode t w) : v = w := by
  have h1 := (plain_iff ⟨false, fun _ => 0⟩ t (encode t w) none (.inl rfl) v).mpr h
  have h2 := (plain_iff ⟨false, fun _ => 0⟩ t (encode t w) none (.inl rfl) w).mpr (List.prefix_refl _)
  rw [h1] at h2
  exact Option.some.inj h2

/-! ### C182: only what is written is read -/

/-- There is one way to write a value: what is read begins with what the value is written as. -/
theorem C182_canonical (size : Ty → Nat) (t : Ty) (input : Bytes) (v : Val t) :
    (fromVector size t input = some v ↔ encode t v <+: input) ∧ (fromOwned size t input = some v ↔ encode t v <+: input) :=
  ⟨plain_iff _ t _ _ (.inr rfl) v, plain_iff _ t _ _ (.inr rfl) v⟩

/-- With the limit the same is read as without, on every input, by both readers. -/
theorem C182_same (size : Ty → Nat) (t : Ty) (input : Bytes) :
    fromVector size t input = plain size t input ∧ fromOwned size t input = plain size t input := by
  have key : ∀ a b : Option (Val t), (∀ v, a = some v ↔ b = some v) → a = b := by
    intro a b h
    cases a with
    | some v => exact ((h v).mp rfl).symm
    | none =>
      cases b with
      | none => rfl
      | some v => exact absurd ((h v).mpr rfl) (by simp)
  exact ⟨key _ _ fun v => (plain_iff _ t _ _ (.inr rfl) v).trans (plain_iff _ t _ _ (.inl rfl) v).symm,
    key _ _ fun v => (plain_iff _ t _ _ (.inr rfl) v).trans (plain_iff _ t _ _ (.inl rfl) v).symm⟩

/-! ### C183: memory -/

theorem memory_le {io : Bool} {size : Ty → Nat} {lim : Option Nat} {K d : Nat} {t : Ty} {input : Bytes} (hK : 1 ≤ K)
    (hsz : ∀ t, size t ≤ K) (hd : Depth t d) (hs : Solid t) (hg : Good ⟨io, size⟩ { rest := input, lim := lim }) :
    memory io size lim t input ≤ K * (d + 1) * input.length + d * 2 ^ 20 ∧ work io size lim t input ≤ input.length + d := by
  obtain ⟨h1, h2⟩ := decode_cost (c := ⟨io, size⟩) hK hsz t d { rest := input, lim := lim } hd hs hg
  unfold memory work
  generalize hr : decode ⟨io, size⟩ t { rest := input, lim := lim } = r at *
  obtain ⟨o, s'⟩ := r
  cases o with
  | none =>
    obtain ⟨u, e1, e2, e3⟩ := h2 s' rfl
    have e1 : input.length = u + s'.rest.length := e1
    have e2 : s'.alloc ≤ 0 + K * (d + 1) * u + d * 2 ^ 20 := e2
    have e3 : s'.steps ≤ 0 + u + d := e3
    have := Nat.mul_le_mul_left (K * (d + 1)) (show u ≤ input.length by omega)
    exact ⟨by show s'.alloc ≤ _; omega, by show s'.steps ≤ _; omega⟩
  | some v =>
    have hm := (decode_sound _ _ _ _ _ hr).length
    have hm : input.length = (encode t v).length + s'.rest.length := hm
    have k := (h1 v s' rfl).1
    have k1 : s'.alloc ≤ 0 + K * (d + 1) * (encode t v).length := k.alloc
    have k2 : s'.steps ≤ 0 + (encode t v).length := k.steps
    have := Nat.mul_le_mul_left (K * (d + 1)) (show (encode t v).length ≤ input.length by omega)
    exact ⟨by show s'.alloc ≤ _; omega, by show s'.steps ≤ _; omega⟩

/-- Reading takes memory in proportion to the input, and 1 MiB for each level of nested sequences, whatever lengths the input
claims. -/
theorem C183_memory (io : Bool) {size : Ty → Nat} {K d : Nat} {t : Ty} (input : Bytes) (hK : 1 ≤ K) (hsz : ∀ t, size t ≤ K)
    (hd : Depth t d) (hs : Solid t) :
    memory io size (some input.length) t input ≤ K * (d + 1) * input.length + d * 2 ^ 20 :=
  (memory_le hK hsz hd hs (.inr ⟨_, rfl, Nat.le_refl _⟩)).1

/-- The full statement of the comment: a length that is larger than the input is refused without an allocation. -/
def C183_none_full : Prop := ∀ (size : Ty → Nat) (t : Ty) (input : Bytes), fromVector size t input = none →
  memory false size (some input.length) t input ≤ input.length

/-- It is not so for sequences (also of bytes): the limit is looked at with the elements; room for up to 1 MiB is made before. -/
theorem C183_counterexample_mib : ¬ C183_none_full := by
  intro h
  have := h (fun _ => 1) (.seq (.int 1)) [0, 0, 0, 255, 0, 0, 0, 0] (by decide +kernel)
  exact absurd this (by decide +kernel)

/-- For strings and byte buffers it is. -/
theorem C183_blob_partial (io : Bool) (size : Ty → Nat) (valid : Bytes → Bool) (input : Bytes) :
    memory io size (some input.length) (.blob valid) input ≤ input.length := by
  have hg : Good ⟨io, fun _ => 1⟩ { rest := input, lim := some input.length } := .inr ⟨_, rfl, Nat.le_refl _⟩
  have e : memory io size (some input.length) (.blob valid) input = memory io (fun _ => 1) (some input.length) (.blob valid) input :=
    rfl
  rw [e]
  have := (memory_le (K := 1) (d := 0) (t := .blob valid) (Nat.le_refl 1) (fun _ => Nat.le_refl 1) trivial trivial hg).1
  simpa using this

/-! ### C184: without the limit -/

/-- Reading a slice is as harmless without the limit: this is what `bincode::deserialize` does in the other crates. -/
theorem C184_slice {size : Ty → Nat} {K d : Nat} {t : Ty} (input : Bytes) (hK : 1 ≤ K) (hsz : ∀ t, size t ≤ K)
    (hd : Depth t d) (hs : Solid t) : memory false size none t input ≤ K * (d + 1) * input.length + d * 2 ^ 20 :=
  (memory_le hK hsz hd hs (.inl rfl)).1

/-- Reading through `std::io::Read` without the limit takes what eight bytes ask for. -/
theorem C184_bomb (size : Ty → Nat) (valid : Bytes → Bool) (n : Nat) (hn : n < 256 ^ 8) :
    (toLE 8 n).length = 8 ∧ memory true size none (.blob valid) (toLE 8 n) = n := by
  refine ⟨length_toLE 8 n, ?_⟩
  obtain ⟨s1, h1⟩ := readInt_fits (s := { rest := toLE 8 n }) hn ⟨⟨[], by simp⟩, fun l e => by simp at e⟩
  obtain ⟨_, h2, h3, _⟩ := readInt_ok h1
  have hr : s1.rest = [] := by
    have := h2.1
    simpa using this
  have hl : s1.lim = none := by
    rcases h2.2 with ⟨_, e⟩ | ⟨l, e, _⟩
    · exact e
    · exact absurd e (by simp)
  unfold memory
  simp only [decode, h1, charge, hl]
  by_cases h0 : n = 0
  · subst h0
    simp [takeN, h3]
  · have : ¬ n ≤ 0 := by omega
    simp [takeN, hr, this, h3]

/-! ### C185: time -/

/-- The full statement: reading begins no more elements than the input has bytes, but one for each level of nested sequences. -/
def C185_full : Prop := ∀ (t : Ty) (d : Nat) (size : Ty → Nat) (input : Bytes), Depth t d →
  work false size (some input.length) t input ≤ input.length + d

/-- It is, if the elements of sequences take bytes. -/
theorem C185_work_partial (io : Bool) {size : Ty → Nat} {K d : Nat} {t : Ty} (input : Bytes) (hK : 1 ≤ K) (hsz : ∀ t, size t ≤ K)
    (hd : Depth t d) (hs : Solid t) : work io size (some input.length) t input ≤ input.length + d :=
  (memory_le hK hsz hd hs (.inr ⟨_, rfl, Nat.le_refl _⟩)).2

theorem many_unit (c : Conf) : ∀ (n room : Nat) (s : St), (readMany (decode c .unit) (c.size .unit) n room s).2.steps = s.steps + n
  | 0, _, s => rfl
  | n + 1, room, s => by
    have ih := many_unit c n (room - 1) (if room = 0 then { s with steps := s.steps + 1, alloc := s.alloc + c.size .unit } else
      { s with steps := s.steps + 1 })
    have e : (if room = 0 then { s with steps := s.steps + 1, alloc := s.alloc + c.size .unit } else
      { s with steps := s.steps + 1 } : St).steps = s.steps + 1 := by split <;> rfl
    rw [e] at ih
    simp only [readMany]
    split
    · rename_i s1 h1
      simp [decode] at h1
    · rename_i a s1 h1
      obtain ⟨_, rfl⟩ := pair_some h1
      split
      · rename_i s3 h3
        rw [show s3 = (readMany (decode c .unit) (c.size .unit) n (room - 1) _).2 from (congrArg Prod.snd h3).symm]
        refine ih.trans ?_
        omega
      · rename_i l s3 h3
        rw [show s3 = (readMany (decode c .unit) (c.size .unit) n (room - 1) _).2 from (congrArg Prod.snd h3).symm]
        refine ih.trans ?_
        omega

/-- Eight bytes make a reader of elements without bytes go through as many as they claim. -/
theorem C185_counterexample_unit (size : Ty → Nat) (n : Nat) (hn : n < 256 ^ 8) :
    work false size (some (toLE 8 n).length) (.seq .unit) (toLE 8 n) = n := by
  obtain ⟨s1, h1⟩ := readInt_fits (s := { rest := toLE 8 n, lim := some (toLE 8 n).length }) hn
    ⟨⟨[], by simp⟩, fun l e => by simp only [Option.some.injEq] at e; omega⟩
  have h3 := (readInt_ok h1).2.2.2
  have h3 : s1.steps = 0 := h3
  unfold work
  simp only [decode, h1]
  have := many_unit ⟨false, size⟩ n (cautious n (size .unit)) { s1 with alloc := s1.alloc + cautious n (size .unit) * size .unit }
  have this := this.trans (show s1.steps + n = n by omega)
  split <;> rename_i h <;> exact (congrArg (fun x => St.steps x.2) h).symm.trans this

theorem C185_counterexample_full : ¬ C185_full := by
  intro h
  have h1 := h (.seq .unit) 1 (fun _ => 0) (toLE 8 100) ⟨by decide, trivial⟩
  rw [C185_counterexample_unit _ 100 (by decide), length_toLE] at h1
  exact absurd h1 (by decide)

/-! ### A type of the program -/

/-- `MessageGroupKey { cid: u64, mgid: u128 }`, a list of them, and a message with an optional text. -/
def exampleTy : Ty := .pair (.seq (.pair (.int 8) (.int 16))) (.option (.blob fun _ => true))

example : Depth exampleTy 1 ∧ Solid exampleTy := ⟨⟨⟨by decide, trivial, trivial⟩, trivial⟩, ⟨⟨.inl (by decide : 0 < 8), trivial, trivial⟩, trivial⟩⟩

end Verif.Bincode

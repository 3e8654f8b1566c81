import Verif.FileStore.Paths
/-
What the operations of the backend do to the file system.
-/
namespace Verif.FileStore

theorem blocked_iff (fs : FS) (pre l : List Str) :
    blocked fs pre l = false ↔ ∀ r, r ≠ [] → r <+: l → ∀ b, fs (pre ++ r) ≠ some (.file b) := by
  induction l generalizing pre with
  | nil =>
    refine ⟨fun _ r hr hp => ?_, fun _ => rfl⟩
    exact absurd (List.prefix_nil.mp hp) hr
  | cons s t ih =>
    simp only [blocked, Bool.or_eq_false_iff, ih]
    constructor
    · rintro ⟨h1, h2⟩ r hr hp b
      cases r with
      | nil => exact absurd rfl hr
      | cons x r =>
        obtain ⟨rfl, hp'⟩ := List.cons_prefix_cons.mp hp
        by_cases hn : r = []
        · subst hn
          intro e; rw [e] at h1; simp at h1
        · have := h2 r hn hp' b
          rwa [List.append_assoc] at this
    · intro h
      constructor
      · have := h [s] (by simp) ⟨t, rfl⟩
        split
        · rename_i b e; exact absurd e (this b)
        · rfl
      · intro r hr hp b
        have := h (s :: r) (by simp) (List.cons_prefix_cons.mpr ⟨rfl, hp⟩) b
        rwa [List.append_assoc]

theorem createDirAll_some {fs fs' : FS} {q : List Str} (h : createDirAll fs q = some fs') :
    (∀ r, r ≠ [] → r <+: q → ∀ b, fs r ≠ some (.file b)) ∧
    (∀ r, r ≠ [] → r <+: q → fs' r = some .dir) ∧
    (∀ r, ¬ (r ≠ [] ∧ r <+: q) → fs' r = fs r) := by
  unfold createDirAll at h
  split at h
  · cases h
  · rename_i hb
    simp only [Option.some.injEq] at h
    subst h
    refine ⟨?_, ?_, ?_⟩
    · have := (blocked_iff fs [] q).mp (by simpa using hb)
      simpa using this
    · intro r h1 h2
      simp [h1, List.isPrefixOf_iff_prefix.mpr h2]
    · intro r hr
      have : ¬ (r ≠ [] ∧ r.isPrefixOf q = true) := fun hc => hr ⟨hc.1, List.isPrefixOf_iff_prefix.mp hc.2⟩
      simp only [this, if_false]

theorem createDirAll_isSome {fs : FS} {q : List Str} (h : ∀ r, r ≠ [] → r <+: q → ∀ b, fs r ≠ some (.file b)) :
    ∃ fs', createDirAll fs q = some fs' := by
  unfold createDirAll
  have := (blocked_iff fs [] q).mpr (by simpa using h)
  rw [this]; exact ⟨_, rfl⟩

theorem write_some {cwd : List Str} {fs fs' : FS} {p : Str} {b : Bytes} (h : write cwd fs p b = some fs') :
    namesFile p = true ∧ resolve cwd p ≠ [] ∧ isDir fs (resolve cwd p).dropLast = true ∧
    isDir fs (resolve cwd p) = false ∧ fs' = fs.set (resolve cwd p) (some (.file b)) := by
  simp only [write] at h
  split at h
  · rename_i hc
    simp only [Bool.and_eq_true, decide_eq_true_eq, Bool.not_eq_true'] at hc
    simp only [Option.some.injEq] at h
    exact ⟨hc.1.1.1, hc.1.1.2, hc.1.2, hc.2, h.symm⟩
  · cases h

theorem remove_some {cwd : List Str} {fs fs' : FS} {p : Str} (h : remove cwd fs p = some fs') :
    namesFile p = true ∧ (∃ b, fs (resolve cwd p) = some (.file b)) ∧ fs' = fs.set (resolve cwd p) none := by
  simp only [remove] at h
  split at h
  · rename_i hn
    split at h
    · rename_i b hb
      simp only [Option.some.injEq] at h
      exact ⟨hn, ⟨b, hb⟩, h.symm⟩
    · cases h
  · cases h

theorem set_same (fs : FS) (q : List Str) (v : Option Node) : fs.set q v q = v := by simp [FS.set]
theorem set_other (fs : FS) {q r : List Str} (v : Option Node) (h : r ≠ q) : fs.set q v r = fs r := by
  simp [FS.set, h]

/-! ### Places -/

variable {M : Type}

/-- The places of the two directories. -/
def Env.V (e : Env M) : List Str := resolve e.cwd e.dirs.virtualDir
def Env.T (e : Env M) : List Str := resolve e.cwd e.dirs.transferDir

/-- The directory of a client for a kind of transfer. -/
def Env.area (e : Env M) (cid : Nat) : Kind → List Str
  | .plain _ => e.T ++ [cidStr cid]
  | .virtual _ => e.V ++ [cidStr cid]

/-- The backend was connected: the two directories exist. -/
def Ready (e : Env M) (fs : FS) : Prop := ∀ r, r ≠ [] → (r <+: e.V ∨ r <+: e.T) → fs r = some .dir

theorem area_base {base : List Str} {c : Str} {rest r : List Str} (h : r <+: base ++ [c] ++ rest)
    (hn : ¬ base ++ [c] <+: r) : r <+: base := by
  rcases List.prefix_or_prefix_of_prefix h (List.prefix_append (base ++ [c]) rest) with h' | h'
  · rcases List.prefix_concat_iff.mp h' with e | h''
    · exact absurd ⟨[], by simp [e]⟩ hn
    · exact h''
  · exact absurd h' hn

/-- What `prepare` computes and creates. -/
theorem prepare_spec {e : Env M} {home : Str} (he : e.dirs = setup home) {fs : FS} {cid : Nat} {k : Kind} {fs' : FS}
    {p : Str} (h : prepare e fs cid k = (fs', some p)) :
    getFilePath (setup home) cid k = some p ∧ e.area cid k <+: resolve e.cwd p ∧
    ∃ dir, createDirAll fs dir = some fs' ∧ (dir = e.area cid k ∨ dir = (resolve e.cwd p).dropLast) ∧
      (∀ path, k = .virtual path → dir = (resolve e.cwd p).dropLast) := by
  unfold prepare at h
  rw [he] at h
  split at h
  · simp at h
  · rename_i p' hp
    cases k with
    | plain name =>
      simp only at h
      split at h
      · simp at h
      · rename_i fs'' hc
        simp only [Prod.mk.injEq, Option.some.injEq] at h
        obtain ⟨rfl, rfl⟩ := h
        refine ⟨hp, ?_, _, hc, .inl ?_, fun path hk => by cases hk⟩
        · rw [plain_place _ hp]; simp only [Env.area, Env.T, he]; exact List.prefix_append _ _
        · simp only [Env.area, Env.T, he]; exact plain_dir _ _ _
    | virtual path =>
      simp only at h
      split at h
      · simp at h
      · rename_i fs'' hc
        simp only [Prod.mk.injEq, Option.some.injEq] at h
        obtain ⟨rfl, rfl⟩ := h
        refine ⟨hp, ?_, _, hc, .inr rfl, fun _ _ => rfl⟩
        rw [virtual_place _ hp]; simp only [Env.area, Env.V, he]; exact List.prefix_append _ _

theorem prepare_none {e : Env M} {fs fs' : FS} {cid : Nat} {k : Kind} (h : prepare e fs cid k = (fs', none)) :
    fs' = fs := by
  simp only [prepare] at h
  cases hg : getFilePath e.dirs cid k with
  | none => rw [hg] at h; simp only [Prod.mk.injEq, and_true] at h; exact h.symm
  | some p =>
    rw [hg] at h
    cases k <;>
    · simp only at h
      split at h
      · simp only [Prod.mk.injEq, and_true] at h; exact h.symm
      · simp at h

theorem area_prefix_base {e : Env M} {cid : Nat} {k : Kind} : ∃ base, e.area cid k = base ++ [cidStr cid] ∧
    (base = e.V ∨ base = e.T) := by
  cases k with
  | plain _ => exact ⟨_, rfl, .inr rfl⟩
  | virtual _ => exact ⟨_, rfl, .inl rfl⟩

/-- Directories are created in the area of the client only. -/
theorem prepare_frame {e : Env M} {home : Str} (he : e.dirs = setup home) {fs : FS} (hR : Ready e fs) {cid : Nat}
    {k : Kind} {q : List Str} (hq : ¬ e.area cid k <+: q) : (prepare e fs cid k).1 q = fs q := by
  cases hp : prepare e fs cid k with
  | mk fs' o =>
    cases o with
    | none => rw [prepare_none hp]
    | some p =>
      obtain ⟨_, ha, dir, hc, hd, _⟩ := prepare_spec he hp
      obtain ⟨_, h2, h3⟩ := createDirAll_some hc
      show fs' q = fs q
      by_cases hx : q ≠ [] ∧ q <+: dir
      · rw [h2 q hx.1 hx.2]
        obtain ⟨base, hb, hb'⟩ := area_prefix_base (e := e) (cid := cid) (k := k)
        rw [hb] at hq ha
        obtain ⟨rest, hr⟩ := ha
        have hdr : dir <+: base ++ [cidStr cid] ++ rest := by
          rcases hd with rfl | rfl
          · rw [hb]; exact List.prefix_append _ _
          · rw [hr]; exact List.dropLast_prefix _
        have := area_base (hx.2.trans hdr) hq
        exact (hR q hx.1 (by rcases hb' with rfl | rfl; exact .inl this; exact .inr this)).symm
      · exact h3 q hx

end Verif.FileStore

import Verif.FileStore.Props
/-
C93: the remote file system is a map from virtual paths to files.
-/
namespace Verif.FileStore

variable {M : Type}

/-! ### The specification -/

/-- What a client sees: one file per normalized virtual path. -/
abbrev Abs (M : Type) := Nat → List Str → Option (M × Bytes)

/-- The operations of the backend. -/
inductive Op (M : Type) where
  | store (cid : Nat) (path : Str) (m : M) (data : Bytes)
  | plain (cid : Nat) (name : Str) (m : M) (data : Bytes)
  | lookup (cid : Nat) (path : Str)
  | delete (cid : Nat) (path : Str)
  | pulled (cid : Nat) (path : Str)

/-- Run one operation. -/
def Op.run (e : Env M) (fs : FS) : Op M → FS × Bool
  | .store cid path m data => FileStore.store e fs cid (.virtual path) m data
  | .plain cid name m data => FileStore.store e fs cid (.plain name) m data
  | .lookup cid path => ((FileStore.lookup e fs cid path).1, (FileStore.lookup e fs cid path).2.isSome)
  | .delete cid path => FileStore.delete e fs cid path
  | .pulled cid path => (deletePulled e fs cid path, true)

/-- Change one entry. -/
def Abs.set (a : Abs M) (cid : Nat) (k : List Str) (v : Option (M × Bytes)) : Abs M :=
  fun c k' => if c = cid ∧ k' = k then v else a c k'

/-- The path is accepted and names a file. -/
def Names (path : Str) : Prop := validateVirtual (formatPath path) = true ∧ (split (formatPath path)).getLast? ≠ some ['.']

instance (path : Str) : Decidable (Names path) := by unfold Names; infer_instance

/-- What an operation means, given whether it reported success. -/
def Op.spec (a : Abs M) (ok : Bool) : Op M → Abs M
  | .store cid path m data => if ok then a.set cid (key path) (some (m, data)) else a
  | .plain .. => a
  | .lookup .. => a
  | .delete cid path => if ok then a.set cid (key path) none else a
  | .pulled cid path => if Names path then a.set cid (key path) none else a

/-- No component of the path ends in `.vxe`. -/
def Clean (k : List Str) : Prop := ∀ s ∈ k, ¬ ext <:+ s

/-- The virtual path of an operation has no component that ends in `.vxe`. -/
def Op.Clean : Op M → Prop
  | .store _ path _ _ => FileStore.Clean (key path)
  | .plain .. => True
  | .lookup _ path => FileStore.Clean (key path)
  | .delete _ path => FileStore.Clean (key path)
  | .pulled _ path => FileStore.Clean (key path)

/-- Run all of them, keeping the map of the specification. -/
def runAll (e : Env M) : List (Op M) → FS × Abs M → FS × Abs M
  | [], x => x
  | o :: r, x => runAll e r ((o.run e x.1).1, o.spec x.2 (o.run e x.1).2)

/-! ### The invariant -/

/-- The keys that occur. -/
def Ok (k : List Str) : Prop := Clean k ∧ ['.'] ∉ k

theorem ok_key {path : Str} (h : Clean (key path)) : Ok (key path) := ⟨h, fun hm => (names_mem hm).2 rfl⟩

/-- A well-formed file system whose virtual directories have clean names. -/
structure Good (e : Env M) (fs : FS) : Prop where
  ready : Ready e fs
  tree : ∀ q s, fs (q ++ [s]) ≠ none → isDir fs q = true
  clean : ∀ c d n, fs (e.V ++ [c] ++ d ++ [n]) = some .dir → ¬ ext <:+ n

/-- The place of a file. -/
def Env.place (e : Env M) (cid : Nat) (k : List Str) : List Str := e.V ++ [cidStr cid] ++ k

/-- The file system holds exactly the files of the map. -/
structure Inv (e : Env M) (fs : FS) (a : Abs M) : Prop extends Good e fs where
  some_ : ∀ cid d n m b, Ok (d ++ [n]) → a cid (d ++ [n]) = some (m, b) →
    fs (e.place cid (d ++ [n])) = some (.file b) ∧ fs (e.place cid (d ++ [n ++ ext])) = some (.file (e.ser m))
  none_ : ∀ cid d n b, Ok (d ++ [n]) → a cid (d ++ [n]) = none → fs (e.place cid (d ++ [n])) ≠ some (.file b)

theorem place_inj {e : Env M} {cid cid' : Nat} {k k' : List Str} (h : e.place cid k = e.place cid' k') :
    cid = cid' ∧ k = k' := by
  simp only [Env.place, List.append_assoc, List.append_cancel_left_eq, List.singleton_append, List.cons.injEq] at h
  exact ⟨cidStr_inj h.1, h.2⟩

theorem ext_suffix (n : Str) : ext <:+ n ++ ext := List.suffix_append _ _

theorem clean_last {d : List Str} {n : Str} (h : Ok (d ++ [n])) : ¬ ext <:+ n := h.1 n (by simp)

theorem not_meta {d d' : List Str} {n n' : Str} (h : Ok (d ++ [n])) : d ++ [n] ≠ d' ++ [n' ++ ext] := fun e => by
  have := List.append_inj' e rfl
  exact clean_last h (List.singleton_inj.mp this.2 ▸ ext_suffix n')

theorem isDir_set_file {fs : FS} {q r : List Str} {b : Bytes} (hq : isDir fs q = false) (h : isDir fs r = true) :
    isDir (fs.set q (some (.file b))) r = true := by
  have hne : r ≠ q := fun e => by rw [e, hq] at h; cases h
  unfold isDir at h ⊢
  rwa [set_other _ _ hne]

theorem isDir_set_none {fs : FS} {q r : List Str} {b : Bytes} (hq : fs q = some (.file b)) (h : isDir fs r = true) :
    isDir (fs.set q none) r = true := by
  unfold isDir at h ⊢
  by_cases hr : r = []
  · simp [hr]
  · simp only [hr, decide_false, Bool.false_or, decide_eq_true_eq] at h ⊢
    have hne : r ≠ q := fun e => by rw [e, hq] at h; cases h
    rwa [set_other _ _ hne]

/-- Writing a file keeps the file system well-formed. -/
theorem good_file {e : Env M} {fs : FS} (G : Good e fs) {q : List Str} (b : Bytes) (h0 : q ≠ [])
    (h1 : isDir fs q.dropLast = true) (h2 : isDir fs q = false) : Good e (fs.set q (some (.file b))) where
  ready := fun r hr h => by
    have := G.ready r hr h
    have hne : r ≠ q := fun e => by subst e; unfold isDir at h2; simp [this] at h2
    rw [set_other _ _ hne]; exact this
  tree := fun r s hs => by
    by_cases he : r ++ [s] = q
    · refine isDir_set_file h2 ?_
      rw [← he, List.dropLast_concat] at h1; exact h1
    · rw [set_other _ _ he] at hs
      exact isDir_set_file h2 (G.tree r s hs)
  clean := fun c d n hd => by
    by_cases he : e.V ++ [c] ++ d ++ [n] = q
    · rw [he, set_same] at hd; cases hd
    · rw [set_other _ _ he] at hd; exact G.clean c d n hd

/-- Removing a file keeps the file system well-formed. -/
theorem good_remove {e : Env M} {fs : FS} (G : Good e fs) {q : List Str} {b : Bytes} (h : fs q = some (.file b)) :
    Good e (fs.set q none) where
  ready := fun r hr h' => by
    have := G.ready r hr h'
    have hne : r ≠ q := fun e => by subst e; rw [h] at this; cases this
    rw [set_other _ _ hne]; exact this
  tree := fun r s hs => by
    by_cases he : r ++ [s] = q
    · rw [he, set_same] at hs; exact absurd rfl hs
    · rw [set_other _ _ he] at hs
      exact isDir_set_none h (G.tree r s hs)
  clean := fun c d n hd => by
    by_cases he : e.V ++ [c] ++ d ++ [n] = q
    · rw [he, set_same] at hd; cases hd
    · rw [set_other _ _ he] at hd; exact G.clean c d n hd

/-- Creating directories keeps the file system well-formed, and its files. -/
theorem good_dirs {e : Env M} {fs fs' : FS} (G : Good e fs) {dir : List Str} (h : createDirAll fs dir = some fs')
    (hc : ∀ c d n, e.V ++ [c] ++ d ++ [n] <+: dir → ¬ ext <:+ n) :
    Good e fs' ∧ ∀ q b, fs' q = some (.file b) ↔ fs q = some (.file b) := by
  obtain ⟨h1, h2, h3⟩ := createDirAll_some h
  have hd : ∀ q, isDir fs q = true → isDir fs' q = true := fun q hq => by
    by_cases hx : q ≠ [] ∧ q <+: dir
    · unfold isDir; simp [h2 q hx.1 hx.2]
    · unfold isDir at hq ⊢; rwa [h3 q hx]
  refine ⟨⟨fun r hr hp => ?_, fun q s hs => ?_, fun c d n hn => ?_⟩, fun q b => ?_⟩
  · by_cases hx : r ≠ [] ∧ r <+: dir
    · exact h2 r hx.1 hx.2
    · rw [h3 r hx]; exact G.ready r hr hp
  · by_cases hx : q ++ [s] ≠ [] ∧ q ++ [s] <+: dir
    · by_cases hq : q = []
      · simp [isDir, hq]
      · have := h2 q hq ((List.prefix_append q [s]).trans hx.2)
        simp [isDir, this]
    · rw [h3 _ hx] at hs; exact hd q (G.tree q s hs)
  · by_cases hx : e.V ++ [c] ++ d ++ [n] ≠ [] ∧ e.V ++ [c] ++ d ++ [n] <+: dir
    · exact hc c d n hx.2
    · rw [h3 _ hx] at hn; exact G.clean c d n hn
  · by_cases hx : q ≠ [] ∧ q <+: dir
    · rw [h2 q hx.1 hx.2]
      exact ⟨(fun h => by cases h), (fun h => absurd h (h1 q hx.1 hx.2 b))⟩
    · rw [h3 q hx]

theorem inv_files {e : Env M} {fs fs' : FS} {a : Abs M} (I : Inv e fs a) (G : Good e fs')
    (h : ∀ q b, fs' q = some (.file b) ↔ fs q = some (.file b)) : Inv e fs' a where
  toGood := G
  some_ := fun cid d n m b hc ha => by
    obtain ⟨h1, h2⟩ := I.some_ cid d n m b hc ha
    exact ⟨(h _ _).mpr h1, (h _ _).mpr h2⟩
  none_ := fun cid d n b hc ha hf => I.none_ cid d n b hc ha ((h _ _).mp hf)

/-! ### The operations -/

theorem names_iff {home : Str} {cid : Nat} {path : Str} :
    Names path ↔ ∃ p, getFilePath (setup home) cid (.virtual path) = some p ∧ namesFile p = true := by
  constructor
  · rintro ⟨hv, hl⟩
    refine ⟨(setup home).virtualDir ++ cidStr cid ++ formatPath path, by simp [getFilePath, hv], ?_⟩
    obtain ⟨r, hr, hd⟩ := valid_cons hv
    simp only [validateVirtual, Bool.and_eq_true, decide_eq_true_eq, Bool.not_eq_true'] at hv
    rw [hr] at hv hl
    rw [hr, setup_virtual]
    unfold namesFile
    rw [split_last_virtual]
    have hne := split_ne_nil r
    rw [show split ('/' :: r) = [] :: split r by simp [split]] at hl
    rw [List.getLast?_cons_of_ne_nil hne] at hl
    rw [List.getLast?_eq_some_getLast hne] at hl ⊢
    simp only [Bool.and_eq_true, decide_eq_true_eq]
    refine ⟨⟨fun h0 => ?_, fun h1 => hl (by rw [h1])⟩, fun h2 => hd (h2 ▸ List.getLast_mem hne)⟩
    -- an empty last piece means that the path ends in a slash
    apply hv.1.2
    have : ∀ s : Str, s ≠ [] → (split s).getLast? = some [] → s.getLast? = some '/' := by
      intro s
      induction s with
      | nil => intro h; exact absurd rfl h
      | cons c t ih =>
        intro _ hs
        simp only [split] at hs
        split at hs
        · rename_i hc
          by_cases ht : t = []
          · subst ht; simp [hc]
          · rw [List.getLast?_cons_of_ne_nil (split_ne_nil t)] at hs
            rw [List.getLast?_cons_of_ne_nil ht]; exact ih ht hs
        · cases hsp : split t with
          | nil => exact absurd hsp (split_ne_nil t)
          | cons x y =>
            rw [hsp] at hs
            simp only at hs
            have hy : y ≠ [] := fun hy => by subst hy; simp at hs
            have ht : t ≠ [] := fun ht => by subst ht; simp [split] at hsp; exact hy hsp.2
            rw [List.getLast?_cons_of_ne_nil ht]
            refine ih ht ?_
            rw [hsp]
            rw [List.getLast?_cons_of_ne_nil hy] at hs ⊢; exact hs
    refine this ('/' :: r) (by simp) ?_
    rw [show split ('/' :: r) = [] :: split r by simp [split], List.getLast?_cons_of_ne_nil hne,
      List.getLast?_eq_some_getLast hne, h0]
  · rintro ⟨p, hp, hf⟩
    obtain ⟨hv, rfl⟩ := virtual_path hp
    refine ⟨hv, fun hl => ?_⟩
    obtain ⟨r, hr, hd⟩ := valid_cons hv
    rw [hr, setup_virtual] at hf
    unfold namesFile at hf
    rw [split_last_virtual] at hf
    rw [hr, show split ('/' :: r) = [] :: split r by simp [split], List.getLast?_cons_of_ne_nil (split_ne_nil r)] at hl
    rw [hl] at hf
    simp at hf

theorem metaKey_dot {home : Str} {cid : Nat} {path p : Str} (h : getFilePath (setup home) cid (.virtual path) = some p)
    (hn : ¬ namesFile p = true) : ∃ x, metaKey path = x ++ [['.'] ++ ext] := by
  have hN : ¬ Names path := fun hN => by
    obtain ⟨p', hp', hf⟩ := (names_iff (home := home) (cid := cid)).mp hN
    rw [h] at hp'
    simp only [Option.some.injEq] at hp'
    exact hn (hp' ▸ hf)
  have hl : (split (formatPath path)).getLast? = some ['.'] :=
    Decidable.byContradiction fun hl => hN ⟨(virtual_path h).1, hl⟩
  rw [metaKey, names, split_append_plain _ ext_plain, List.filter_append]
  refine ⟨_, congrArg _ ?_⟩
  rw [List.getLast?_eq_some_getLast (split_ne_nil _)] at hl
  simp only [Option.some.injEq] at hl
  rw [hl]; decide

/-- The steps of an operation on a virtual path. -/
theorem prepare_virtual {e : Env M} {home : Str} (he : e.dirs = setup home) {fs fs1 : FS} {a : Abs M} (I : Inv e fs a)
    {cid : Nat} {path p : Str} (hc : Clean (key path)) (h : prepare e fs cid (.virtual path) = (fs1, some p)) :
    getFilePath (setup home) cid (.virtual path) = some p ∧ Inv e fs1 a ∧
    (∀ q b, fs1 q = some (.file b) ↔ fs q = some (.file b)) ∧ isDir fs1 (resolve e.cwd p).dropLast = true := by
  obtain ⟨hg, _, dir, hcr, _, hdir⟩ := prepare_spec he h
  have hdir := hdir path rfl
  have hpl : resolve e.cwd p = e.place cid (key path) := by rw [virtual_place _ hg, Env.place, Env.V, he]
  obtain ⟨G, hf⟩ := good_dirs I.toGood hcr (fun c d n hp => by
    have hp2 : e.V ++ [c] ++ d ++ [n] <+: e.V ++ [cidStr cid] ++ key path := by
      have := hp.trans (hdir ▸ List.dropLast_prefix _)
      rwa [hpl, Env.place] at this
    simp only [List.append_assoc, List.prefix_append_right_inj] at hp2
    have hp3 := (List.cons_prefix_cons.mp hp2).2
    exact hc n (hp3.subset (by simp)))
  refine ⟨hg, inv_files I G hf, hf, ?_⟩
  obtain ⟨_, h2, _⟩ := createDirAll_some hcr
  by_cases hn : dir = []
  · simp [isDir, ← hdir, hn]
  · simp [isDir, ← hdir, h2 dir hn (List.prefix_refl _)]

theorem inv_update {e : Env M} {fs fs' : FS} {a : Abs M} (I : Inv e fs a) {cid : Nat} {d : List Str} {n : Str}
    {v : Option (M × Bytes)} (hc : Ok (d ++ [n])) (G : Good e fs')
    (hfr : ∀ q b, q ≠ e.place cid (d ++ [n]) → q ≠ e.place cid (d ++ [n ++ ext]) →
      (fs' q = some (.file b) ↔ fs q = some (.file b)))
    (hs : ∀ m b, v = some (m, b) → fs' (e.place cid (d ++ [n])) = some (.file b) ∧
      fs' (e.place cid (d ++ [n ++ ext])) = some (.file (e.ser m)))
    (hn : v = none → ∀ b, fs' (e.place cid (d ++ [n])) ≠ some (.file b)) :
    Inv e fs' (a.set cid (d ++ [n]) v) where
  toGood := G
  some_ := fun cid' d' n' m b hc' ha => by
    by_cases hk : cid' = cid ∧ d' ++ [n'] = d ++ [n]
    · simp only [Abs.set, hk, and_self, if_true] at ha
      obtain ⟨rfl, hk⟩ := hk
      have hi := List.append_inj' hk rfl
      have hi2 := List.singleton_inj.mp hi.2
      rw [hi.1, hi2]
      exact hs m b ha
    · simp only [Abs.set, hk, if_false] at ha
      obtain ⟨h1, h2⟩ := I.some_ cid' d' n' m b hc' ha
      have n1 : e.place cid' (d' ++ [n']) ≠ e.place cid (d ++ [n]) := fun h => hk (place_inj h)
      have n2 : e.place cid' (d' ++ [n']) ≠ e.place cid (d ++ [n ++ ext]) := fun h => not_meta hc' (place_inj h).2
      have n3 : e.place cid' (d' ++ [n' ++ ext]) ≠ e.place cid (d ++ [n]) := fun h => not_meta hc (place_inj h).2.symm
      have n4 : e.place cid' (d' ++ [n' ++ ext]) ≠ e.place cid (d ++ [n ++ ext]) := fun h => by
        obtain ⟨hx, hy⟩ := place_inj h
        have hi := List.append_inj' hy rfl
        have hi2 := List.append_cancel_right (List.singleton_inj.mp hi.2)
        exact hk ⟨hx, by rw [hi.1, hi2]⟩
      exact ⟨(hfr _ _ n1 n2).mpr h1, (hfr _ _ n3 n4).mpr h2⟩
  none_ := fun cid' d' n' b hc' ha => by
    by_cases hk : cid' = cid ∧ d' ++ [n'] = d ++ [n]
    · simp only [Abs.set, hk, and_self, if_true] at ha
      obtain ⟨rfl, hk⟩ := hk
      rw [hk]; exact hn ha b
    · simp only [Abs.set, hk, if_false] at ha
      have n1 : e.place cid' (d' ++ [n']) ≠ e.place cid (d ++ [n]) := fun h => hk (place_inj h)
      have n2 : e.place cid' (d' ++ [n']) ≠ e.place cid (d ++ [n ++ ext]) := fun h => not_meta hc' (place_inj h).2
      exact fun h => I.none_ cid' d' n' b hc' ha ((hfr _ _ n1 n2).mp h)

theorem place_ne_nil (e : Env M) (cid : Nat) (k : List Str) : e.place cid k ≠ [] := by simp [Env.place]

theorem place_dropLast (e : Env M) (cid : Nat) (d : List Str) (n : Str) :
    (e.place cid (d ++ [n])).dropLast = e.V ++ [cidStr cid] ++ d := by
  simp [Env.place, ← List.append_assoc]

theorem inv_store {e : Env M} {home : Str} (he : e.dirs = setup home) {fs : FS} {a : Abs M} (I : Inv e fs a)
    {cid : Nat} {path : Str} {m : M} {data : Bytes} (hc : Clean (key path)) :
    Inv e (store e fs cid (.virtual path) m data).1
      ((Op.store cid path m data).spec a (store e fs cid (.virtual path) m data).2) := by
  unfold store
  cases hp : prepare e fs cid (.virtual path) with
  | mk fs1 o =>
    cases o with
    | none =>
      rw [prepare_none hp]; exact I
    | some p =>
      obtain ⟨hg, I1, hf1, hdir⟩ := prepare_virtual he I hc hp
      simp only
      cases hw : write e.cwd fs1 p [] with
      | none => exact I1
      | some fs2 =>
        obtain ⟨hn, h0, h1, h2, rfl⟩ := write_some hw
        obtain ⟨d, n, hk, hmk, _⟩ := key_concat hg hn
        have hpl : resolve e.cwd p = e.place cid (d ++ [n]) := by
          rw [virtual_place _ hg, Env.place, Env.V, he, hk]
        have hml : resolve e.cwd (metaPath p) = e.place cid (d ++ [n ++ ext]) := by
          rw [meta_place _ hg, Env.place, Env.V, he, hmk]
        have G2 := good_file I1.toGood (q := resolve e.cwd p) [] h0 h1 h2
        replace hc := ok_key hc
        rw [hk] at hc
        -- the metadata can be written
        have hmd : isDir (fs1.set (resolve e.cwd p) (some (.file []))) (resolve e.cwd (metaPath p)) = false := by
          cases hx : isDir (fs1.set (resolve e.cwd p) (some (.file []))) (resolve e.cwd (metaPath p)) with
          | false => rfl
          | true =>
            rw [hml] at hx
            simp only [isDir, place_ne_nil, decide_false, Bool.false_or, decide_eq_true_eq] at hx
            have := G2.clean (cidStr cid) d (n ++ ext) (by rw [← hx]; simp [Env.place])
            exact absurd (ext_suffix n) this
        have hpar : isDir (fs1.set (resolve e.cwd p) (some (.file []))) (resolve e.cwd (metaPath p)).dropLast = true := by
          rw [hml, place_dropLast]
          rw [hpl, place_dropLast] at h1
          exact isDir_set_file h2 h1
        have hwm : write e.cwd (fs1.set (resolve e.cwd p) (some (.file []))) (metaPath p) (e.ser m) =
            some ((fs1.set (resolve e.cwd p) (some (.file []))).set (resolve e.cwd (metaPath p))
              (some (.file (e.ser m)))) := by
          unfold write
          have h0' : resolve e.cwd (metaPath p) ≠ [] := by rw [hml]; exact place_ne_nil _ _ _
          simp [meta_namesFile hg, hpar, hmd, h0']
        simp only [hwm, Op.spec, if_true]
        rw [hk]
        have hne : e.place cid (d ++ [n]) ≠ e.place cid (d ++ [n ++ ext]) := fun h => not_meta hc (place_inj h).2
        have G3 := good_file G2 (q := resolve e.cwd (metaPath p)) (e.ser m) (by rw [hml]; exact place_ne_nil _ _ _) hpar hmd
        refine inv_update I hc (?_ : Good e _) ?_ ?_ (fun h => by cases h)
        · -- the data replaces the empty file
          have hd1 : isDir ((fs1.set (resolve e.cwd p) (some (.file []))).set (resolve e.cwd (metaPath p))
              (some (.file (e.ser m)))) (resolve e.cwd p) = false := by
            rw [hpl, hml] at *
            unfold isDir
            rw [set_other _ _ hne, set_same]
            simp [place_ne_nil]
          have hd2 : isDir ((fs1.set (resolve e.cwd p) (some (.file []))).set (resolve e.cwd (metaPath p))
              (some (.file (e.ser m)))) (resolve e.cwd p).dropLast = true :=
            isDir_set_file hmd (isDir_set_file h2 h1)
          exact good_file G3 data h0 hd2 hd1
        · intro q b n1 n2
          rw [hpl, hml, set_other _ _ n1, set_other _ _ n2, set_other _ _ n1]
          exact hf1 q b
        · intro m' b hv
          simp only [Option.some.injEq, Prod.mk.injEq] at hv
          obtain ⟨rfl, rfl⟩ := hv
          rw [hpl, hml]
          refine ⟨set_same .., ?_⟩
          rw [set_other _ _ hne.symm, set_same]

theorem inv_lookup {e : Env M} {home : Str} (he : e.dirs = setup home) {fs : FS} {a : Abs M} (I : Inv e fs a)
    {cid : Nat} {path : Str} (hc : Clean (key path)) : Inv e (lookup e fs cid path).1 a := by
  unfold lookup
  cases hp : prepare e fs cid (.virtual path) with
  | mk fs1 o =>
    cases o with
    | none => rw [prepare_none hp]; exact I
    | some p =>
      obtain ⟨_, I1, _⟩ := prepare_virtual he I hc hp
      simp only
      split <;> exact I1

theorem inv_delete {e : Env M} {home : Str} (he : e.dirs = setup home) {fs : FS} {a : Abs M} (I : Inv e fs a)
    {cid : Nat} {path : Str} (hc : Clean (key path)) :
    Inv e (delete e fs cid path).1 ((Op.delete cid path).spec a (delete e fs cid path).2) := by
  unfold delete
  cases hp : prepare e fs cid (.virtual path) with
  | mk fs1 o =>
    cases o with
    | none => rw [prepare_none hp]; exact I
    | some p =>
      obtain ⟨hg, I1, hf1, _⟩ := prepare_virtual he I hc hp
      simp only
      cases hm : remove e.cwd fs1 (metaPath p) with
      | none => exact I1
      | some fs2 =>
        obtain ⟨_, ⟨bm, hbm⟩, rfl⟩ := remove_some hm
        have G2 := good_remove I1.toGood hbm
        simp only
        cases hr : remove e.cwd (fs1.set (resolve e.cwd (metaPath p)) none) p with
        | none =>
          -- the file is not there
          simp only [Op.spec, Bool.false_eq_true, if_false]
          by_cases hn : namesFile p = true
          · obtain ⟨d, n, hk, hmk, _⟩ := key_concat hg hn
            have hpl : resolve e.cwd p = e.place cid (d ++ [n]) := by
              rw [virtual_place _ hg, Env.place, Env.V, he, hk]
            have hml : resolve e.cwd (metaPath p) = e.place cid (d ++ [n ++ ext]) := by
              rw [meta_place _ hg, Env.place, Env.V, he, hmk]
            replace hc := ok_key hc
            rw [hk] at hc
            have hne : e.place cid (d ++ [n]) ≠ e.place cid (d ++ [n ++ ext]) := fun h => not_meta hc (place_inj h).2
            have hno : ∀ b, fs1 (e.place cid (d ++ [n])) ≠ some (.file b) := fun b hb => by
              unfold remove at hr
              rw [hn, hpl, hml, set_other _ _ hne, hb] at hr
              simp at hr
            have hnone : a cid (d ++ [n]) = none := by
              cases hx : a cid (d ++ [n]) with
              | none => rfl
              | some v => exact absurd (I1.some_ cid d n v.1 v.2 hc hx).1 (hno _)
            have := inv_update I1 (v := none) hc G2 (fun q b n1 n2 => by rw [hml, set_other _ _ n2])
              (fun m b h => by cases h) (fun _ b => by rw [hml, set_other _ _ hne]; exact hno b)
            have hset : a.set cid (d ++ [n]) none = a := by
              funext c k
              unfold Abs.set
              split
              · rename_i h; rw [h.1, h.2]; exact hnone.symm
              · rfl
            rwa [hset] at this
          · -- a path like `/x/.`
            refine ⟨G2, fun cid' d' n' m b hc' ha => ?_, fun cid' d' n' b hc' ha => ?_⟩
            · obtain ⟨h1, h2⟩ := I1.some_ cid' d' n' m b hc' ha
              have hml : resolve e.cwd (metaPath p) = e.place cid (metaKey path) := by
                rw [meta_place _ hg, Env.place, Env.V, he]
              obtain ⟨x, hx⟩ := metaKey_dot hg hn
              have n1 : e.place cid' (d' ++ [n']) ≠ resolve e.cwd (metaPath p) := fun h => by
                rw [hml] at h
                have := (place_inj h).2
                rw [hx] at this
                have hi := List.append_inj' this rfl
                exact clean_last hc' (List.singleton_inj.mp hi.2 ▸ ⟨['.'], rfl⟩)
              have n2 : e.place cid' (d' ++ [n' ++ ext]) ≠ resolve e.cwd (metaPath p) := fun h => by
                rw [hml] at h
                have := (place_inj h).2
                rw [hx] at this
                have hi := List.append_inj' this rfl
                have hn' : n' = ['.'] := List.append_cancel_right (List.singleton_inj.mp hi.2)
                exact hc'.2 (by simp [hn'])
              rw [set_other _ _ n1, set_other _ _ n2]
              exact ⟨h1, h2⟩
            · by_cases hq : e.place cid' (d' ++ [n']) = resolve e.cwd (metaPath p)
              · rw [hq, set_same]; simp
              · rw [set_other _ _ hq]; exact I1.none_ cid' d' n' b hc' ha
        | some fs3 =>
          obtain ⟨hn, ⟨bp, hbp⟩, rfl⟩ := remove_some hr
          obtain ⟨d, n, hk, hmk, _⟩ := key_concat hg hn
          have hpl : resolve e.cwd p = e.place cid (d ++ [n]) := by
            rw [virtual_place _ hg, Env.place, Env.V, he, hk]
          have hml : resolve e.cwd (metaPath p) = e.place cid (d ++ [n ++ ext]) := by
            rw [meta_place _ hg, Env.place, Env.V, he, hmk]
          simp only [Op.spec, if_true]
          replace hc := ok_key hc
          rw [hk] at hc ⊢
          refine inv_update I hc (good_remove G2 hbp) ?_ (fun m b h => by cases h) ?_
          · intro q b n1 n2
            rw [hpl, hml, set_other _ _ n1, set_other _ _ n2]
            exact hf1 q b
          · intro _ b
            rw [hpl, set_same]; simp

theorem inv_pulled {e : Env M} {home : Str} (he : e.dirs = setup home) {fs : FS} {a : Abs M} (I : Inv e fs a)
    {cid : Nat} {path : Str} (hc : Clean (key path)) :
    Inv e (deletePulled e fs cid path) ((Op.pulled (M := M) cid path).spec a true) := by
  simp only [Op.spec]
  unfold deletePulled
  rw [he]
  by_cases hN : Names path
  · rw [if_pos hN]
    obtain ⟨p, hg, hn⟩ := (names_iff (home := home) (cid := cid)).mp hN
    rw [hg]
    obtain ⟨d, n, hk, hmk, _⟩ := key_concat hg hn
    have hpl : resolve e.cwd p = e.place cid (d ++ [n]) := by rw [virtual_place _ hg, Env.place, Env.V, he, hk]
    replace hc := ok_key hc
    rw [hk] at hc ⊢
    simp only
    cases hr : remove e.cwd fs p with
    | none =>
      have hno : ∀ b, fs (e.place cid (d ++ [n])) ≠ some (.file b) := fun b hb => by
        unfold remove at hr
        rw [hn, hpl, hb] at hr
        simp at hr
      exact inv_update I hc I.toGood (fun _ _ _ _ => Iff.rfl) (fun m b h => by cases h) (fun _ => hno)
    | some fs' =>
      obtain ⟨_, ⟨b, hb⟩, rfl⟩ := remove_some hr
      refine inv_update I hc (good_remove I.toGood hb) (fun q b n1 _ => ?_) (fun m b h => by cases h) (fun _ b => ?_)
      · rw [hpl]; simp only [Option.getD_some]; rw [set_other _ _ n1]
      · rw [hpl]; simp only [Option.getD_some]; rw [set_same]; simp
  · rw [if_neg hN]
    cases hg : getFilePath (setup home) cid (.virtual path) with
    | none => exact I
    | some p =>
      simp only
      cases hr : remove e.cwd fs p with
      | none => exact I
      | some fs' =>
        exact absurd ((names_iff (home := home) (cid := cid)).mpr ⟨p, hg, (remove_some hr).1⟩) hN

theorem inv_outside {e : Env M} {fs fs' : FS} {a : Abs M} (I : Inv e fs a) (G : Good e fs')
    (h : ∀ q b, e.V <+: q → (fs' q = some (.file b) ↔ fs q = some (.file b))) : Inv e fs' a where
  toGood := G
  some_ := fun cid d n m b hc ha => by
    obtain ⟨h1, h2⟩ := I.some_ cid d n m b hc ha
    have hp : ∀ k, e.V <+: e.place cid k := fun k => by
      unfold Env.place; rw [List.append_assoc]; exact List.prefix_append _ _
    exact ⟨(h _ _ (hp _)).mpr h1, (h _ _ (hp _)).mpr h2⟩
  none_ := fun cid d n b hc ha hf => by
    have hp : ∀ k, e.V <+: e.place cid k := fun k => by
      unfold Env.place; rw [List.append_assoc]; exact List.prefix_append _ _
    exact I.none_ cid d n b hc ha ((h _ _ (hp _)).mp hf)

theorem V_T {e : Env M} {home : Str} (he : e.dirs = setup home) {q : List Str} (h : e.V <+: q) : ¬ e.T <+: q :=
  fun h' => by
    obtain ⟨hm, h1, h2⟩ := resolve_virtual e.cwd home
    have hV : e.V = hm ++ ["virtual".toList] := by rw [Env.V, he]; exact h1
    have hT : e.T = hm ++ ["transfers".toList] := by rw [Env.T, he]; exact h2
    have heq : e.V = e.T := by
      rcases List.prefix_or_prefix_of_prefix h h' with hp | hp
      · exact hp.eq_of_length (by simp [hV, hT])
      · exact (hp.eq_of_length (by simp [hV, hT])).symm
    rw [hV, hT] at heq
    exact absurd (List.append_cancel_left heq) (by decide)

theorem inv_plain {e : Env M} {home : Str} (he : e.dirs = setup home) {fs : FS} {a : Abs M} (I : Inv e fs a)
    {cid : Nat} {name : Str} {m : M} {data : Bytes} : Inv e (store e fs cid (.plain name) m data).1 a := by
  unfold store
  cases hp : prepare e fs cid (.plain name) with
  | mk fs1 o =>
    cases o with
    | none => rw [prepare_none hp]; exact I
    | some p =>
      have hdir : createDirAll fs (e.T ++ [cidStr cid]) = some fs1 := by
        unfold prepare at hp
        rw [he] at hp
        split at hp
        · simp at hp
        · simp only at hp
          split at hp
          · simp at hp
          · rename_i fs'' hc
            simp only [Prod.mk.injEq] at hp
            rw [plain_dir, hp.1] at hc
            rw [Env.T, he]; exact hc
      have hg := (prepare_spec he hp).1
      have hT : e.T <+: resolve e.cwd p := by
        rw [plain_place _ hg, Env.T, he, List.append_assoc]; exact List.prefix_append _ _
      have hVT : ∀ q, e.V <+: q → ¬ e.T <+: q := fun q => V_T he
      obtain ⟨G1, hf1⟩ := good_dirs I.toGood hdir (fun c d n hpre => by
        have h1 : e.V <+: e.T ++ [cidStr cid] := (by
          rw [List.append_assoc, List.append_assoc] at hpre
          exact (List.prefix_append _ _).trans hpre)
        exact absurd (List.prefix_append _ _) (hVT _ h1))
      have I1 := inv_files I G1 hf1
      simp only
      cases hw : write e.cwd fs1 p [] with
      | none => exact I1
      | some fs2 =>
        obtain ⟨hn, h0, h1, h2, rfl⟩ := write_some hw
        have G2 := good_file I1.toGood (q := resolve e.cwd p) [] h0 h1 h2
        have hd : isDir (fs1.set (resolve e.cwd p) (some (.file []))) (resolve e.cwd p) = false := by
          unfold isDir; rw [set_same]; simp [h0]
        have G3 := good_file G2 data h0 (isDir_set_file h2 h1) hd
        refine inv_outside I1 G3 (fun q b hq => ?_)
        have hne : q ≠ resolve e.cwd p := fun h => hVT q hq (h ▸ hT)
        show (fs1.set (resolve e.cwd p) (some (.file []))).set (resolve e.cwd p) (some (.file data)) q = _ ↔ _
        rw [set_other _ _ hne, set_other _ _ hne]

/-- Every operation on clean paths does what the specification says. -/
theorem inv_run {e : Env M} {home : Str} (he : e.dirs = setup home) {fs : FS} {a : Abs M} (I : Inv e fs a)
    (o : Op M) (hc : o.Clean) : Inv e (o.run e fs).1 (o.spec a (o.run e fs).2) := by
  cases o with
  | store cid path m data => exact inv_store he I hc
  | plain cid name m data => exact inv_plain (m := m) he I
  | lookup cid path => exact inv_lookup he I hc
  | delete cid path => exact inv_delete he I hc
  | pulled cid path => exact inv_pulled he I hc

theorem inv_runAll {e : Env M} {home : Str} (he : e.dirs = setup home) (ops : List (Op M)) (hc : ∀ o ∈ ops, o.Clean)
    (x : FS × Abs M) (I : Inv e x.1 x.2) : Inv e (runAll e ops x).1 (runAll e ops x).2 := by
  induction ops generalizing x with
  | nil => exact I
  | cons o r ih =>
    exact ih (fun o ho => hc o (List.mem_cons_of_mem _ ho)) _ (inv_run he I o (hc _ (List.mem_cons_self ..)))

/-! ### What a client observes -/

/-- In a tree everything above a file is a directory. -/
theorem tree_above {e : Env M} {fs : FS} (G : Good e fs) (q r : List Str) (hr : r ≠ []) (h : fs (q ++ r) ≠ none) :
    isDir fs q = true := by
  induction r generalizing q with
  | nil => exact absurd rfl hr
  | cons s r ih =>
    by_cases hn : r = []
    · subst hn; exact G.tree q s h
    · have h1 := ih (q ++ [s]) hn (by simpa using h)
      refine G.tree q s ?_
      simp only [isDir, List.append_ne_nil_of_right_ne_nil, ne_eq, List.cons_ne_nil, not_false_eq_true, decide_false,
        Bool.false_or, decide_eq_true_eq] at h1
      rw [h1]; simp

/-- What is in the map is reachable. -/
theorem prepare_stored {e : Env M} {home : Str} (he : e.dirs = setup home) {fs : FS} {a : Abs M} (I : Inv e fs a)
    {cid : Nat} {path : Str} (hc : Clean (key path)) (hN : Names path) (ha : a cid (key path) ≠ none) :
    ∃ fs1 p, prepare e fs cid (.virtual path) = (fs1, some p) := by
  obtain ⟨p, hg, hn⟩ := (names_iff (home := home) (cid := cid)).mp hN
  obtain ⟨d, n, hk, hmk, _⟩ := key_concat hg hn
  have hpl : resolve e.cwd p = e.place cid (d ++ [n]) := by rw [virtual_place _ hg, Env.place, Env.V, he, hk]
  replace hc := ok_key hc
  rw [hk] at hc ha
  obtain ⟨v, hv⟩ := Option.ne_none_iff_exists'.mp ha
  have hf := (I.some_ cid d n v.1 v.2 hc hv).1
  have : ∃ fs', createDirAll fs (resolve e.cwd p).dropLast = some fs' := by
    refine createDirAll_isSome (fun r hr hp b hb => ?_)
    rw [hpl, place_dropLast] at hp
    obtain ⟨t, ht⟩ := hp
    have hab : fs (r ++ (t ++ [n])) ≠ none := by
      rw [← List.append_assoc, ht, List.append_assoc, ← Env.place, hf]; simp
    have := tree_above I.toGood r (t ++ [n]) (by simp) hab
    simp [isDir, hr, hb] at this
  obtain ⟨fs', hfs'⟩ := this
  refine ⟨fs', p, ?_⟩
  unfold prepare
  rw [he, hg]
  simp only [hfs']

theorem lookup_spec {e : Env M} {home : Str} (he : e.dirs = setup home) (hde : ∀ m, e.de (e.ser m) = some m) {fs : FS}
    {a : Abs M} (I : Inv e fs a) {cid : Nat} {path : Str} (hc : Clean (key path)) :
    (lookup e fs cid path).2 = if Names path then a cid (key path) else none := by
  unfold lookup
  cases hp : prepare e fs cid (.virtual path) with
  | mk fs1 o =>
    cases o with
    | none =>
      by_cases hN : Names path
      · rw [if_pos hN]
        cases ha : a cid (key path) with
        | none => rfl
        | some v =>
          obtain ⟨_, _, h⟩ := prepare_stored he I hc hN (by rw [ha]; simp)
          rw [hp] at h
          simp at h
      · rw [if_neg hN]
    | some p =>
      obtain ⟨hg, I1, _, _⟩ := prepare_virtual he I hc hp
      by_cases hN : Names path
      · obtain ⟨p', hg', hn⟩ := (names_iff (home := home) (cid := cid)).mp hN
        rw [hg] at hg'
        simp only [Option.some.injEq] at hg'
        subst hg'
        obtain ⟨d, n, hk, hmk, _⟩ := key_concat hg hn
        have hpl : resolve e.cwd p = e.place cid (d ++ [n]) := by rw [virtual_place _ hg, Env.place, Env.V, he, hk]
        have hml : resolve e.cwd (metaPath p) = e.place cid (d ++ [n ++ ext]) := by
          rw [meta_place _ hg, Env.place, Env.V, he, hmk]
        replace hc := ok_key hc
        rw [if_pos hN, hk]
        rw [hk] at hc
        cases ha : a cid (d ++ [n]) with
        | some v =>
          obtain ⟨h1, h2⟩ := I1.some_ cid d n v.1 v.2 hc ha
          simp [read, hn, meta_namesFile hg, hpl, hml, h1, h2, hde]
        | none =>
          have h1 := fun b => I1.none_ cid d n b hc ha
          have : read e.cwd fs1 p = none := by
            unfold read
            rw [if_pos hn, hpl]
            split
            · rename_i b hb; exact absurd hb (h1 b)
            · rfl
          simp only [this]
          split
          · rename_i h; cases h
          · rfl
      · rw [if_neg hN]
        have hn : ¬ namesFile p = true := fun hn => hN (names_iff.mpr ⟨p, hg, hn⟩)
        have : read e.cwd fs1 p = none := by unfold read; rw [if_neg hn]
        simp only [this]
        split
        · rename_i h; cases h
        · rfl

theorem delete_spec {e : Env M} {home : Str} (he : e.dirs = setup home) {fs : FS}
    {a : Abs M} (I : Inv e fs a) {cid : Nat} {path : Str} (hc : Clean (key path)) :
    (delete e fs cid path).2 = true ↔ Names path ∧ a cid (key path) ≠ none := by
  constructor
  · intro h
    unfold delete at h
    cases hp : prepare e fs cid (.virtual path) with
    | mk fs1 o =>
      rw [hp] at h
      cases o with
      | none => cases h
      | some p =>
        obtain ⟨hg, I1, _, _⟩ := prepare_virtual he I hc hp
        simp only at h
        cases hm : remove e.cwd fs1 (metaPath p) with
        | none => rw [hm] at h; cases h
        | some fs2 =>
          rw [hm] at h
          simp only at h
          cases hr : remove e.cwd fs2 p with
          | none => rw [hr] at h; cases h
          | some fs3 =>
            obtain ⟨_, _, rfl⟩ := remove_some hm
            obtain ⟨hn, ⟨b, hb⟩, _⟩ := remove_some hr
            obtain ⟨d, n, hk, hmk, _⟩ := key_concat hg hn
            have hpl : resolve e.cwd p = e.place cid (d ++ [n]) := by
              rw [virtual_place _ hg, Env.place, Env.V, he, hk]
            have hml : resolve e.cwd (metaPath p) = e.place cid (d ++ [n ++ ext]) := by
              rw [meta_place _ hg, Env.place, Env.V, he, hmk]
            replace hc := ok_key hc
            refine ⟨names_iff.mpr ⟨p, hg, hn⟩, ?_⟩
            rw [hk] at hc ⊢
            have hne : e.place cid (d ++ [n]) ≠ e.place cid (d ++ [n ++ ext]) := fun h => not_meta hc (place_inj h).2
            rw [hpl, hml, set_other _ _ hne] at hb
            exact fun ha => I1.none_ cid d n b hc ha hb
  · rintro ⟨hN, ha⟩
    obtain ⟨fs1, p, hp⟩ := prepare_stored he I hc hN ha
    obtain ⟨hg, I1, _, _⟩ := prepare_virtual he I hc hp
    obtain ⟨p', hg', hn⟩ := (names_iff (home := home) (cid := cid)).mp hN
    rw [hg] at hg'
    simp only [Option.some.injEq] at hg'
    subst hg'
    obtain ⟨d, n, hk, hmk, _⟩ := key_concat hg hn
    have hpl : resolve e.cwd p = e.place cid (d ++ [n]) := by rw [virtual_place _ hg, Env.place, Env.V, he, hk]
    have hml : resolve e.cwd (metaPath p) = e.place cid (d ++ [n ++ ext]) := by
      rw [meta_place _ hg, Env.place, Env.V, he, hmk]
    replace hc := ok_key hc
    rw [hk] at hc ha
    obtain ⟨v, hv⟩ := Option.ne_none_iff_exists'.mp ha
    obtain ⟨h1, h2⟩ := I1.some_ cid d n v.1 v.2 hc hv
    have hne : e.place cid (d ++ [n]) ≠ e.place cid (d ++ [n ++ ext]) := fun h => not_meta hc (place_inj h).2
    unfold delete
    rw [hp]
    simp [remove, meta_namesFile hg, hn, hpl, hml, h2, set_other _ _ hne, h1]

/-- The file system after the start: both directories exist, nothing is stored yet. -/
structure Fresh (e : Env M) (fs : FS) : Prop where
  ready : Ready e fs
  tree : ∀ q s, fs (q ++ [s]) ≠ none → isDir fs q = true
  empty : ∀ c d, fs (e.V ++ [c] ++ d) = none

theorem inv_fresh {e : Env M} {fs : FS} (h : Fresh e fs) : Inv e fs (fun _ _ => none) where
  ready := h.ready
  tree := h.tree
  clean := fun c d n hd => by rw [List.append_assoc, h.empty] at hd; cases hd
  some_ := fun _ _ _ _ _ _ h => by cases h
  none_ := fun cid d n b _ _ hf => by rw [Env.place, h.empty] at hf; cases hf

/-- **C93** (partial: virtual paths without components that end in `.vxe`). After any operations of any clients, a
client finds at a path exactly what the map of the specification holds for them at the normalized path — the last
file they stored there and did not delete or pull with deletion — and a deletion succeeds exactly if there is a
file. -/
theorem C93_map_partial (e : Env M) {home : Str} (he : e.dirs = setup home) (hde : ∀ m, e.de (e.ser m) = some m)
    {fs : FS} (hf : Fresh e fs) (ops : List (Op M)) (hops : ∀ o ∈ ops, o.Clean) (cid : Nat) (path : Str)
    (hc : Clean (key path)) :
    (lookup e (runAll e ops (fs, fun _ _ => none)).1 cid path).2 =
      (if Names path then (runAll e ops (fs, fun _ _ => none)).2 cid (key path) else none) ∧
    ((delete e (runAll e ops (fs, fun _ _ => none)).1 cid path).2 = true ↔
      Names path ∧ (runAll e ops (fs, fun _ _ => none)).2 cid (key path) ≠ none) := by
  have I := inv_runAll he ops hops (fs, fun _ _ => none) (inv_fresh hf)
  exact ⟨lookup_spec he hde I hc, delete_spec he I hc⟩

/-! ### Examples -/

theorem fs0_fresh : Fresh srv fs0 where
  ready := fs0_ready
  tree := fun q s h => by
    unfold fs0 at h
    split at h
    · rename_i hq
      rcases hq with hq | hq | hq
      · have := List.append_inj' (t₁ := [s]) (s₂ := []) hq rfl
        simp [isDir, this.1]
      · have := List.append_inj' (t₁ := [s]) (s₂ := ["h".toList]) hq rfl
        simp [isDir, this.1, fs0]
      · have := List.append_inj' (t₁ := [s]) (s₂ := ["h".toList]) hq rfl
        simp [isDir, this.1, fs0]
    · exact absurd rfl h
  empty := fun c d => by
    rw [srv_V]
    unfold fs0
    rw [if_neg]
    rintro (h | h | h) <;> · have := congrArg List.length h; simp at this

/-- Two clients store, one replaces their file, looks it up and deletes another one. -/
def clientOps : List (Op Bytes) :=
  [.store 5 "/a/b".toList [1] [10], .store 6 "/a/b".toList [2] [20], .store 5 "\\\\a\\./b".toList [3] [30],
   .store 5 "/c".toList [4] [40], .plain 5 "c".toList [] [50], .delete 5 "/c".toList, .pulled 6 "/x".toList]

instance (k : List Str) : Decidable (Clean k) := by unfold Clean; infer_instance
instance (o : Op Bytes) : Decidable o.Clean := by cases o <;> simp only [Op.Clean] <;> infer_instance

example : (∀ o ∈ clientOps, o.Clean) ∧
    (lookup srv (runAll srv clientOps (fs0, fun _ _ => none)).1 5 "/a/b".toList).2 = some ([3], [30]) ∧
    (lookup srv (runAll srv clientOps (fs0, fun _ _ => none)).1 6 "/a/b".toList).2 = some ([2], [20]) ∧
    (lookup srv (runAll srv clientOps (fs0, fun _ _ => none)).1 5 "/c".toList).2 = none ∧
    (runAll srv clientOps (fs0, fun _ _ => none)).2 5 ["a".toList, "b".toList] = some ([3], [30]) := by decide +kernel

/-- What a successful `store` of a virtual file leaves: the file and its metadata, each at its place. -/
theorem C93_written (e : Env M) {home : Str} (he : e.dirs = setup home) (fs : FS) (cid : Nat) (path : Str) (m : M)
    (data : Bytes) (h : (store e fs cid (.virtual path) m data).2 = true) :
    ∃ p, getFilePath e.dirs cid (.virtual path) = some p ∧
      read e.cwd (store e fs cid (.virtual path) m data).1 p = some data ∧
      read e.cwd (store e fs cid (.virtual path) m data).1 (metaPath p) = some (e.ser m) := by
  unfold store at h ⊢
  cases hp : prepare e fs cid (.virtual path) with
  | mk fs1 o =>
    rw [hp] at h
    cases o with
    | none => cases h
    | some p =>
      have hg := (prepare_spec he hp).1
      refine ⟨p, by rw [he]; exact hg, ?_⟩
      simp only at h ⊢
      cases hw : write e.cwd fs1 p [] with
      | none => rw [hw] at h; cases h
      | some fs2 =>
        rw [hw] at h
        simp only at h ⊢
        obtain ⟨d, n, hk, hmk, _⟩ := key_concat hg (write_some hw).1
        have hne : resolve e.cwd (metaPath p) ≠ resolve e.cwd p := by
          rw [virtual_place _ hg, meta_place _ hg, hk, hmk]
          simp [ext]
        cases hm : write e.cwd fs2 (metaPath p) (e.ser m) with
        | none => rw [hm] at h; cases h
        | some fs3 =>
          simp only
          refine ⟨by rw [read, (write_some hw).1, if_pos rfl, set_same], ?_⟩
          obtain ⟨hn, _, _, _, rfl⟩ := write_some hm
          rw [read, hn, if_pos rfl, set_other _ _ hne, set_same]

/-- **C93** is false for paths that end in `.vxe`: storing `/a.vxe` replaces the metadata of `/a` (here: the keys the
file was encrypted with), and deleting it removes them. -/
theorem C93_counterexample :
    (lookup srv (runAll srv [.store 5 "/a".toList [1] [10]] (fs0, fun _ _ => none)).1 5 "/a".toList).2 =
      some ([1], [10]) ∧
    (lookup srv (runAll srv [.store 5 "/a".toList [1] [10], .store 5 "/a.vxe".toList [2] [20]]
      (fs0, fun _ _ => none)).1 5 "/a".toList).2 = some ([20], [10]) ∧
    (lookup srv (runAll srv [.store 5 "/a".toList [1] [10], .store 5 "/a.vxe".toList [2] [20], .delete 5 "/a.vxe".toList]
      (fs0, fun _ _ => none)).1 5 "/a".toList).2 = none := by decide +kernel

/-- A lookup leaves directories behind: after looking for `/a/b`, no file can be stored as `/a`. -/
theorem C93_lookup_blocks :
    (store srv fs0 5 (.virtual "/a".toList) [1] [10]).2 = true ∧
    (store srv (lookup srv fs0 5 "/a/b".toList).1 5 (.virtual "/a".toList) [1] [10]).2 = false := by decide +kernel

end Verif.FileStore

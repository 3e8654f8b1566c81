import Verif.FileStore.Lemmas
/-
C91: received files stay in the directory of their client.
-/
namespace Verif.FileStore

variable {M : Type}

/-- **C91.** Whatever virtual path a peer chooses: the file and its metadata lie below the directory of the client
(the metadata properly). -/
theorem C91_virtual_contained (home : Str) (cwd : List Str) (cid : Nat) (path p : Str)
    (h : getFilePath (setup home) cid (.virtual path) = some p) :
    (∃ d, resolve cwd p = resolve cwd (setup home).virtualDir ++ [cidStr cid] ++ d) ∧
    (∃ d, d ≠ [] ∧ resolve cwd (metaPath p) = resolve cwd (setup home).virtualDir ++ [cidStr cid] ++ d) := by
  refine ⟨⟨_, virtual_place cwd h⟩, _, ?_, meta_place cwd h⟩
  obtain ⟨hv, _⟩ := virtual_path h
  unfold metaKey names
  rw [split_append_plain _ ext_plain, List.filter_append]
  have hl : ∀ x : Str, x ++ ext ≠ ['.'] := fun x e => by
    have := congrArg List.length e
    simp [ext] at this
  have hl' : ∀ x : Str, x ++ ext ≠ [] := fun x e => by simp [ext] at e
  simp [hl, hl']

/-- **C91.** The same for the name of an ordinary transfer. -/
theorem C91_plain_contained (home : Str) (cwd : List Str) (cid : Nat) (name p : Str)
    (h : getFilePath (setup home) cid (.plain name) = some p) :
    ∃ d, resolve cwd p = resolve cwd (setup home).transferDir ++ [cidStr cid] ++ d :=
  ⟨_, plain_place cwd h⟩

/-- **C91.** The directories of different clients, and those for the two kinds of transfers, have no place in
common. -/
theorem C91_areas_disjoint (e : Env M) {home : Str} (he : e.dirs = setup home) (cid cid' : Nat) (k k' : Kind)
    (q : List Str) (h : e.area cid k <+: q) (h' : e.area cid' k' <+: q) :
    cid = cid' ∧ ((∃ n, k = .plain n) ↔ ∃ n, k' = .plain n) := by
  obtain ⟨hm, h1, h2⟩ := resolve_virtual e.cwd home
  have hV : e.V = hm ++ ["virtual".toList] := by rw [Env.V, he]; exact h1
  have hT : e.T = hm ++ ["transfers".toList] := by rw [Env.T, he]; exact h2
  have hlen : (e.area cid k).length = (e.area cid' k').length := by
    cases k <;> cases k' <;> simp [Env.area, hV, hT]
  have heq : e.area cid k = e.area cid' k' := by
    rcases List.prefix_or_prefix_of_prefix h h' with hp | hp
    · exact hp.eq_of_length hlen
    · exact (hp.eq_of_length hlen.symm).symm
  cases k <;> cases k' <;> simp only [Env.area, hV, hT] at heq <;>
    · have := List.append_inj' heq rfl
      have hc := cidStr_inj (List.singleton_inj.mp this.2)
      have hd := (List.append_inj' this.1 rfl).2
      first
        | exact absurd hd (by decide)
        | exact ⟨hc, by simp⟩

theorem write_frame {cwd : List Str} {fs fs' : FS} {p : Str} {b : Bytes} (h : write cwd fs p b = some fs')
    {q : List Str} (hq : q ≠ resolve cwd p) : fs' q = fs q := by
  obtain ⟨_, _, _, _, rfl⟩ := write_some h
  exact set_other _ _ hq

theorem remove_frame {cwd : List Str} {fs fs' : FS} {p : Str} (h : remove cwd fs p = some fs')
    {q : List Str} (hq : q ≠ resolve cwd p) : fs' q = fs q := by
  obtain ⟨_, _, rfl⟩ := remove_some h
  exact set_other _ _ hq

theorem not_area {e : Env M} {home : Str} (he : e.dirs = setup home) {cid : Nat} {k : Kind} {p : Str} {q : List Str}
    (hp : getFilePath (setup home) cid k = some p) (hq : ¬ e.area cid k <+: q) :
    q ≠ resolve e.cwd p ∧ (∀ path, k = .virtual path → q ≠ resolve e.cwd (metaPath p)) := by
  cases k with
  | plain name =>
    refine ⟨fun h => hq ?_, fun _ h => by cases h⟩
    rw [h, plain_place _ hp]; simp only [Env.area, Env.T, he]; exact List.prefix_append _ _
  | virtual path =>
    refine ⟨fun h => hq ?_, fun _ _ h => hq ?_⟩
    · rw [h, virtual_place _ hp]; simp only [Env.area, Env.V, he]; exact List.prefix_append _ _
    · rw [h, meta_place _ hp]; simp only [Env.area, Env.V, he]; exact List.prefix_append _ _

/-- **C91.** Receiving a file changes nothing outside of the directory of the client, whether it succeeds or not. -/
theorem C91_store_frame (e : Env M) {home : Str} (he : e.dirs = setup home) {fs : FS} (hR : Ready e fs) (cid : Nat)
    (k : Kind) (m : M) (data : Bytes) {q : List Str} (hq : ¬ e.area cid k <+: q) :
    (store e fs cid k m data).1 q = fs q := by
  have hf := prepare_frame he hR (cid := cid) (k := k) hq
  unfold store
  cases hp : prepare e fs cid k with
  | mk fs1 o =>
    rw [hp] at hf
    cases o with
    | none => exact hf
    | some p =>
      obtain ⟨hg, _, _⟩ := prepare_spec he hp
      obtain ⟨n1, n2⟩ := not_area he hg hq
      simp only
      cases hw : write e.cwd fs1 p [] with
      | none => exact hf
      | some fs2 =>
        have h2 := (write_frame hw n1).trans hf
        cases k with
        | plain name => exact (set_other _ _ n1).trans h2
        | virtual path =>
          simp only
          cases hm : write e.cwd fs2 (metaPath p) (e.ser m) with
          | none => exact h2
          | some fs3 => exact (set_other _ _ n1).trans ((write_frame hm (n2 _ rfl)).trans h2)

/-- **C91.** Looking for a file changes nothing outside of the directory of the client. -/
theorem C91_lookup_frame (e : Env M) {home : Str} (he : e.dirs = setup home) {fs : FS} (hR : Ready e fs) (cid : Nat)
    (path : Str) {q : List Str} (hq : ¬ e.area cid (.virtual path) <+: q) :
    (lookup e fs cid path).1 q = fs q := by
  have hf := prepare_frame he hR (cid := cid) (k := .virtual path) hq
  unfold lookup
  cases hp : prepare e fs cid (.virtual path) with
  | mk fs1 o =>
    rw [hp] at hf
    cases o with
    | none => exact hf
    | some p =>
      simp only
      split <;> exact hf

/-- **C91.** Deleting a file changes nothing outside of the directory of the client. -/
theorem C91_delete_frame (e : Env M) {home : Str} (he : e.dirs = setup home) {fs : FS} (hR : Ready e fs) (cid : Nat)
    (path : Str) {q : List Str} (hq : ¬ e.area cid (.virtual path) <+: q) :
    (delete e fs cid path).1 q = fs q ∧ deletePulled e fs cid path q = fs q := by
  have hf := prepare_frame he hR (cid := cid) (k := .virtual path) hq
  constructor
  · unfold delete
    cases hp : prepare e fs cid (.virtual path) with
    | mk fs1 o =>
      rw [hp] at hf
      cases o with
      | none => exact hf
      | some p =>
        obtain ⟨hg, _, _⟩ := prepare_spec he hp
        obtain ⟨n1, n2⟩ := not_area he hg hq
        simp only
        cases hm : remove e.cwd fs1 (metaPath p) with
        | none => exact hf
        | some fs2 =>
          have h2 := (remove_frame hm (n2 _ rfl)).trans hf
          simp only
          cases hr : remove e.cwd fs2 p with
          | none => exact h2
          | some fs3 => exact (remove_frame hr n1).trans h2
  · unfold deletePulled
    cases hg : getFilePath e.dirs cid (.virtual path) with
    | none => rfl
    | some p =>
      rw [he] at hg
      obtain ⟨n1, _⟩ := not_area he hg hq
      simp only
      cases hr : remove e.cwd fs p with
      | none => rfl
      | some fs3 => exact remove_frame hr n1

/-! ### Examples -/

/-- A server whose home directory is `/h`. -/
def srv : Env Bytes := { cwd := ["w".toList], dirs := setup "/h".toList, ser := fun b => b, de := some }

/-- The directories after the start. -/
def fs0 : FS := fun q =>
  if q = ["h".toList] ∨ q = ["h".toList, "virtual".toList] ∨ q = ["h".toList, "transfers".toList] then some .dir else none

theorem srv_V : srv.V = ["h".toList, "virtual".toList] := by decide
theorem srv_T : srv.T = ["h".toList, "transfers".toList] := by decide

theorem fs0_ready : Ready srv fs0 := by
  intro r hr h
  rw [srv_V, srv_T] at h
  have : r = ["h".toList] ∨ r = ["h".toList, "virtual".toList] ∨ r = ["h".toList, "transfers".toList] := by
    rcases h with h | h
    all_goals
      rcases List.prefix_concat_iff (l₁ := r) (l₂ := ["h".toList]) |>.mp h with h | h
      · simp_all
      · rcases List.prefix_concat_iff (l₁ := r) (l₂ := []) |>.mp h with h | h
        · exact .inl h
        · exact absurd (List.prefix_nil.mp h) hr
  unfold fs0
  rw [if_pos this]

/-- A path is accepted, stored and found at the expected place. -/
example : getFilePath srv.dirs 57 (.virtual "/a\\b".toList) = some "/h/virtual/57/a/b".toList := by decide
example : (store srv fs0 57 (.virtual "/a\\b".toList) [9] [1, 2]).2 = true := by decide
example : (store srv fs0 57 (.virtual "/a\\b".toList) [9] [1, 2]).1
    ["h".toList, "virtual".toList, "57".toList, "a".toList, "b".toList] = some (.file [1, 2]) := by decide
example : (lookup srv (store srv fs0 57 (.virtual "/a\\b".toList) [9] [1, 2]).1 57 "//a/./b".toList).2 =
    some ([9], [1, 2]) := by decide

/-- Paths that try to leave the directory are refused. -/
example : getFilePath srv.dirs 57 (.virtual "/../58/a".toList) = none ∧
    getFilePath srv.dirs 57 (.virtual "..\\..\\accounts".toList) = none ∧
    getFilePath srv.dirs 57 (.plain "/etc/passwd".toList) = none ∧
    getFilePath srv.dirs 57 (.plain "a/../../x".toList) = none := by decide

end Verif.FileStore

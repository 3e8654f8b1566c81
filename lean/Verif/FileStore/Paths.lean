import Verif.FileStore.Model
/-
Lemmas about the paths of the backend.
-/
namespace Verif.FileStore

theorem split_ne_nil (s : Str) : split s ≠ [] := by
  cases s with
  | nil => simp [split]
  | cons c r =>
    simp only [split]
    split
    · simp
    · split <;> simp

theorem split_append (a b : Str) : split (a ++ '/' :: b) = split a ++ split b := by
  induction a with
  | nil => simp [split]
  | cons c r ih =>
    simp only [List.cons_append, split, ih]
    split
    · simp
    · have := split_ne_nil r
      cases hr : split r with
      | nil => exact absurd hr this
      | cons h t => simp

theorem split_plain {s : Str} (h : '/' ∉ s) : split s = [s] := by
  induction s with
  | nil => rfl
  | cons c r ih =>
    simp only [List.mem_cons, not_or] at h
    simp only [split, ih h.2]
    rw [if_neg (fun hc => h.1 hc.symm)]

/-- Appending to the last piece. -/
theorem split_append_ex (s : Str) {t : Str} (ht : '/' ∉ t) :
    ∃ d l, split s = d ++ [l] ∧ split (s ++ t) = d ++ [l ++ t] := by
  induction s with
  | nil => exact ⟨[], [], by simp [split], by simp [split_plain ht]⟩
  | cons c r ih =>
    obtain ⟨d, l, h1, h2⟩ := ih
    simp only [List.cons_append, split, h1, h2]
    split
    · exact ⟨[] :: d, l, by simp, by simp⟩
    · cases d with
      | nil => exact ⟨[], c :: l, by simp, by simp⟩
      | cons a b => exact ⟨(c :: a) :: b, l, by simp, by simp⟩

theorem split_append_plain (s : Str) {t : Str} (ht : '/' ∉ t) :
    split (s ++ t) = (split s).dropLast ++ [((split s).getLast (split_ne_nil s)) ++ t] := by
  obtain ⟨d, l, h1, h2⟩ := split_append_ex s ht
  simp [h1, h2]

theorem split_first {r : Str} {x : Char} {h : Str} {t : List Str} (e : split r = (x :: h) :: t) : r.head? = some x := by
  cases r with
  | nil => simp [split] at e
  | cons c r =>
    simp only [split] at e
    split at e
    · simp at e
    · split at e <;> simp at e <;> simp [e]

theorem hasDots_cons {c : Char} {r : Str} (h : hasDots r = true) : hasDots (c :: r) = true := by
  cases r with
  | nil => simp [hasDots] at h
  | cons d r => simp only [hasDots, h, Bool.or_true]

theorem hasDots_of_mem {s : Str} (h : ['.', '.'] ∈ split s) : hasDots s = true := by
  induction s with
  | nil => simp [split] at h
  | cons c r ih =>
    simp only [split] at h
    split at h
    · simp only [List.mem_cons, List.cons_ne_nil, false_or] at h
      exact hasDots_cons (ih h)
    · split at h
      · simp at h
      · rename_i h' t hr
        simp only [List.mem_cons, List.cons.injEq] at h
        rcases h with ⟨rfl, rfl⟩ | h
        · have := split_first hr
          cases r with
          | nil => simp at this
          | cons d r =>
            simp only [List.head?_cons, Option.some.injEq] at this
            subst this
            simp [hasDots]
        · exact hasDots_cons (ih (by rw [hr]; exact List.mem_cons_of_mem _ h))

/-- The pieces that count. -/
def names (s : Str) : List Str := (split s).filter fun x => x ≠ [] && x ≠ ['.']

theorem enter_fold (l : List Str) (h : ['.', '.'] ∉ l) (at_ : List Str) :
    l.foldl enter at_ = at_ ++ l.filter fun x => x ≠ [] && x ≠ ['.'] := by
  induction l generalizing at_ with
  | nil => simp
  | cons s r ih =>
    simp only [List.mem_cons, not_or] at h
    simp only [List.foldl_cons]
    rw [ih h.2]
    unfold enter
    by_cases h1 : s = [] ∨ s = ['.']
    · rw [if_pos h1]
      rcases h1 with rfl | rfl <;> simp
    · rw [if_neg h1, if_neg (fun e => h.1 e.symm)]
      simp only [not_or] at h1
      simp [h1.1, h1.2]

theorem resolve_append (cwd : List Str) {a : Str} (ha : a ≠ []) (b : Str) :
    resolve cwd (a ++ '/' :: b) = (split b).foldl enter (resolve cwd a) := by
  unfold resolve
  rw [split_append, List.foldl_append]
  cases a with
  | nil => exact absurd rfl ha
  | cons c r => simp

/-! ### Client ids -/

theorem digit_of_mem {cid : Nat} {c : Char} (h : c ∈ cidStr cid) : c.isDigit = true :=
  Nat.isDigit_of_mem_toDigits (by decide) (by decide) h

theorem slash_not_mem (cid : Nat) : '/' ∉ cidStr cid := fun h => by
  have := digit_of_mem h; revert this; decide

theorem dot_not_mem (cid : Nat) : '.' ∉ cidStr cid := fun h => by
  have := digit_of_mem h; revert this; decide

theorem backslash_not_mem (cid : Nat) : '\\' ∉ cidStr cid := fun h => by
  have := digit_of_mem h; revert this; decide

theorem cidStr_ne_nil (cid : Nat) : cidStr cid ≠ [] := Nat.toDigits_ne_nil

theorem cidStr_inj {a b : Nat} (h : cidStr a = cidStr b) : a = b := by
  have ha := Nat.ofDigitChars_toDigits (b := 10) (n := a) (by decide) (by decide)
  have hb := Nat.ofDigitChars_toDigits (b := 10) (n := b) (by decide) (by decide)
  unfold cidStr at h
  rw [h, hb] at ha
  exact ha.symm

theorem enter_cid (at_ : List Str) (cid : Nat) : enter at_ (cidStr cid) = at_ ++ [cidStr cid] := by
  unfold enter
  have h1 := cidStr_ne_nil cid
  have h2 := dot_not_mem cid
  rw [if_neg, if_neg]
  · intro h; rw [h] at h2; simp at h2
  · rintro (h | h)
    · exact h1 h
    · rw [h] at h2; simp at h2

/-! ### Formatting -/

theorem formatPath_append (a b : Str) : formatPath (a ++ b) = formatPath a ++ formatPath b := by simp [formatPath]

theorem formatPath_idem (a : Str) : formatPath (formatPath a) = formatPath a := by
  simp only [formatPath, List.map_map]
  congr 1
  funext c
  simp only [Function.comp]
  by_cases h : c = '\\' <;> simp [h]

theorem formatPath_plain {a : Str} (h : '\\' ∉ a) : formatPath a = a := by
  induction a with
  | nil => rfl
  | cons c r ih =>
    simp only [List.mem_cons, not_or] at h
    simp only [formatPath, List.map_cons] at ih ⊢
    rw [ih h.2, if_neg (fun e => h.1 e.symm)]

/-! ### The two directories -/

/-- The home directory as the store sees it. -/
def homePath (home : Str) : Str := formatPath (if home.getLast? = some '/' then home else home ++ ['/'])

theorem setup_virtual (home : Str) : (setup home).virtualDir = homePath home ++ "virtual".toList ++ ['/'] := by
  simp only [setup, homePath, formatPath_append]
  rw [formatPath_plain (a := "virtual/".toList) (by decide), List.append_assoc]; rfl

theorem setup_transfer (home : Str) : (setup home).transferDir = homePath home ++ "transfers".toList ++ ['/'] := by
  simp only [setup, homePath, formatPath_append]
  rw [formatPath_plain (a := "transfers/".toList) (by decide), List.append_assoc]; rfl

theorem virtual_formatted (home : Str) : formatPath (setup home).virtualDir = (setup home).virtualDir :=
  formatPath_idem _

theorem resolve_dir (cwd : List Str) {a : Str} (ha : a ≠ []) : resolve cwd (a ++ ['/']) = resolve cwd a := by
  rw [resolve_append cwd ha]; simp [split, enter]

/-- The place of a path below the directory of a client. -/
theorem resolve_below (cwd : List Str) {a : Str} (ha : a ≠ []) (cid : Nat) {rest : Str} (hr : ['.', '.'] ∉ split rest) :
    resolve cwd (a ++ ['/'] ++ cidStr cid ++ '/' :: rest) = resolve cwd (a ++ ['/']) ++ [cidStr cid] ++ names rest := by
  have e : a ++ ['/'] ++ cidStr cid ++ '/' :: rest = a ++ '/' :: (cidStr cid ++ '/' :: rest) := by simp
  rw [e, resolve_append cwd ha, split_append, List.foldl_append, split_plain (slash_not_mem cid), resolve_dir cwd ha]
  simp only [List.foldl_cons, List.foldl_nil, enter_cid]
  rw [enter_fold _ hr]; rfl

theorem virtual_ne (home : Str) : homePath home ++ "virtual".toList ≠ [] := by simp
theorem transfer_ne (home : Str) : homePath home ++ "transfers".toList ≠ [] := by simp

/-- The places of the two directories. -/
theorem resolve_virtual (cwd : List Str) (home : Str) :
    ∃ h, resolve cwd (setup home).virtualDir = h ++ ["virtual".toList] ∧
      resolve cwd (setup home).transferDir = h ++ ["transfers".toList] := by
  have hh : homePath home ≠ [] := by
    unfold homePath formatPath
    intro h
    simp only [List.map_eq_nil_iff] at h
    split at h <;> simp_all
  -- the home directory ends in a slash
  obtain ⟨a, ha⟩ : ∃ a, homePath home = a ++ ['/'] := by
    unfold homePath
    split
    · rename_i hl
      obtain ⟨ys, hy⟩ := List.getLast?_eq_some_iff.mp hl
      exact ⟨formatPath ys, by rw [hy, formatPath_append]; rfl⟩
    · exact ⟨formatPath home, by rw [formatPath_append]; rfl⟩
  rw [setup_virtual, setup_transfer, resolve_dir _ (virtual_ne home), resolve_dir _ (transfer_ne home), ha]
  simp only [List.append_assoc, List.singleton_append]
  by_cases hn : a = []
  · subst hn
    refine ⟨[], ?_, ?_⟩ <;> · unfold resolve; simp only [List.nil_append, List.head?_cons, if_true]; decide
  · refine ⟨resolve cwd a, ?_, ?_⟩ <;>
    · rw [resolve_append cwd hn, split_plain (by decide)]
      simp [enter]

/-! ### Virtual paths -/

/-- The normal form of a virtual path. -/
def key (path : Str) : List Str := names (formatPath path)

/-- The place of the metadata in the normal form. -/
def metaKey (path : Str) : List Str := names (formatPath path ++ ext)

theorem ext_plain : '/' ∉ ext := by decide

theorem valid_cons {s : Str} (h : validateVirtual s = true) : ∃ r, s = '/' :: r ∧ ['.', '.'] ∉ split r := by
  simp only [validateVirtual, Bool.and_eq_true, decide_eq_true_eq, Bool.not_eq_true'] at h
  obtain ⟨⟨h1, _⟩, h3⟩ := h
  cases s with
  | nil => simp at h1
  | cons c r =>
    simp only [List.head?_cons, Option.some.injEq] at h1
    subst h1
    refine ⟨r, rfl, fun hm => ?_⟩
    have := hasDots_cons (c := '/') (hasDots_of_mem hm)
    rw [h3] at this; cases this

theorem names_slash (r : Str) : names ('/' :: r) = names r := by
  unfold names
  rw [show split ('/' :: r) = [] :: split r by simp [split]]
  simp

theorem append_ext_dots {r : Str} (h : ['.', '.'] ∉ split r) : ['.', '.'] ∉ split (r ++ ext) := by
  rw [split_append_plain r ext_plain]
  intro hm
  rcases List.mem_append.mp hm with hm | hm
  · exact h (List.dropLast_subset _ hm)
  · simp only [List.mem_singleton] at hm
    have := congrArg List.length hm
    simp [ext] at this

theorem virtual_path {home : Str} {cid : Nat} {path p : Str}
    (h : getFilePath (setup home) cid (.virtual path) = some p) :
    validateVirtual (formatPath path) = true ∧ p = (setup home).virtualDir ++ cidStr cid ++ formatPath path := by
  simp only [getFilePath] at h
  split at h
  · rename_i hv; simp only [Option.some.injEq] at h; exact ⟨hv, h.symm⟩
  · cases h

theorem virtual_place {home : Str} {cid : Nat} {path p : Str} (cwd : List Str)
    (h : getFilePath (setup home) cid (.virtual path) = some p) :
    resolve cwd p = resolve cwd (setup home).virtualDir ++ [cidStr cid] ++ key path := by
  obtain ⟨hv, rfl⟩ := virtual_path h
  obtain ⟨r, hr, hd⟩ := valid_cons hv
  rw [key, hr, names_slash, setup_virtual]
  exact resolve_below cwd (virtual_ne home) cid hd

theorem meta_path {home : Str} {cid : Nat} {path p : Str} (h : getFilePath (setup home) cid (.virtual path) = some p) :
    metaPath p = p ++ ext := by
  obtain ⟨hv, rfl⟩ := virtual_path h
  unfold metaPath
  simp only [formatPath_append, virtual_formatted, formatPath_idem, formatPath_plain (backslash_not_mem cid)]
  rw [formatPath_plain (a := ext) (by decide)]

theorem meta_place {home : Str} {cid : Nat} {path p : Str} (cwd : List Str)
    (h : getFilePath (setup home) cid (.virtual path) = some p) :
    resolve cwd (metaPath p) = resolve cwd (setup home).virtualDir ++ [cidStr cid] ++ metaKey path := by
  rw [meta_path h]
  obtain ⟨hv, rfl⟩ := virtual_path h
  obtain ⟨r, hr, hd⟩ := valid_cons hv
  rw [metaKey, hr, List.cons_append, names_slash, setup_virtual, List.append_assoc, List.cons_append]
  exact resolve_below cwd (virtual_ne home) cid (append_ext_dots hd)

theorem split_last_virtual (a : Str) (cid : Nat) (r : Str) :
    (split (a ++ ['/'] ++ cidStr cid ++ '/' :: r)).getLast? = (split r).getLast? := by
  have e : a ++ ['/'] ++ cidStr cid ++ '/' :: r = (a ++ ['/'] ++ cidStr cid) ++ '/' :: r := by simp
  rw [e, split_append]
  rw [List.getLast?_append]
  have := split_ne_nil r
  cases h : (split r).getLast? with
  | none => rw [List.getLast?_eq_none_iff] at h; exact absurd h this
  | some x => simp

/-- A path names a file if its last piece is a name. -/
theorem key_concat {home : Str} {cid : Nat} {path p : Str} (h : getFilePath (setup home) cid (.virtual path) = some p)
    (hf : namesFile p = true) : ∃ d n, key path = d ++ [n] ∧ metaKey path = d ++ [n ++ ext] ∧ n ≠ [] := by
  obtain ⟨hv, rfl⟩ := virtual_path h
  obtain ⟨r, hr, hd⟩ := valid_cons hv
  rw [hr, setup_virtual] at hf
  unfold namesFile at hf
  rw [split_last_virtual] at hf
  have hne := split_ne_nil r
  rw [List.getLast?_eq_some_getLast hne] at hf
  simp only [Bool.and_eq_true, decide_eq_true_eq] at hf
  have hs : split r = (split r).dropLast ++ [(split r).getLast hne] := (List.dropLast_concat_getLast hne).symm
  refine ⟨((split r).dropLast).filter (fun x => x ≠ [] && x ≠ ['.']), (split r).getLast hne, ?_, ?_, hf.1.1⟩
  · rw [key, hr, names_slash, names]
    conv => lhs; rw [hs]
    rw [List.filter_append]
    simp [hf.1.1, hf.1.2]
  · rw [metaKey, hr, List.cons_append, names_slash, names, split_append_plain r ext_plain, List.filter_append]
    congr 1
    have hl : ∀ x : Str, x ++ ext ≠ ['.'] := fun x e => by
      have := congrArg List.length e
      simp [ext] at this
    have hl' : ∀ x : Str, x ++ ext ≠ [] := fun x e => by simp [ext] at e
    simp [hl, hl']

/-- The metadata of a file always has a name. -/
theorem meta_namesFile {home : Str} {cid : Nat} {path p : Str}
    (h : getFilePath (setup home) cid (.virtual path) = some p) : namesFile (metaPath p) = true := by
  rw [meta_path h]
  unfold namesFile
  rw [split_append_plain p ext_plain]
  simp only [List.getLast?_append, List.getLast?_singleton, Option.some_or]
  have : ∀ x : Str, (x ++ ext).length ≥ 4 := fun x => by simp [ext]
  have h4 := this ((split p).getLast (split_ne_nil p))
  simp only [Bool.and_eq_true, decide_eq_true_eq]
  refine ⟨⟨?_, ?_⟩, ?_⟩ <;> (intro e; rw [e] at h4; simp at h4)

/-- Names contain no slash, are not empty and not `.`. -/
theorem names_mem {s x : Str} (h : x ∈ names s) : x ≠ [] ∧ x ≠ ['.'] := by
  simp only [names, List.mem_filter, Bool.and_eq_true, decide_eq_true_eq] at h
  exact h.2

/-! ### Names of plain transfers -/

theorem validateName_parts {name : Str} (h : validateName name = true) : ['.', '.'] ∉ split name := by
  simp only [validateName, Bool.and_eq_true, List.all_eq_true] at h
  obtain ⟨_, h⟩ := h
  intro hm
  have hc : component? ['.', '.'] = some .parent := by decide
  unfold components at h
  split at h
  · rename_i e; exact absurd e (split_ne_nil _)
  · rename_i x t e
    rw [e] at hm
    split at h
    · exact absurd (h .root (List.mem_cons_self ..)) (by simp)
    · split at h
      · rename_i hx
        subst hx
        simp only [List.mem_cons, List.cons.injEq, reduceCtorEq, and_false, false_or] at hm
        exact absurd (h .parent (List.mem_cons_of_mem _ (List.mem_filterMap.mpr ⟨_, hm, hc⟩))) (by simp)
      · exact absurd (h .parent (List.mem_filterMap.mpr ⟨_, hm, hc⟩)) (by simp)

theorem plain_path {home : Str} {cid : Nat} {name p : Str} (h : getFilePath (setup home) cid (.plain name) = some p) :
    validateName name = true ∧ p = (setup home).transferDir ++ cidStr cid ++ ['/'] ++ name := by
  simp only [getFilePath] at h
  split at h
  · rename_i hv; simp only [Option.some.injEq] at h; exact ⟨hv, h.symm⟩
  · cases h

theorem plain_place {home : Str} {cid : Nat} {name p : Str} (cwd : List Str)
    (h : getFilePath (setup home) cid (.plain name) = some p) :
    resolve cwd p = resolve cwd (setup home).transferDir ++ [cidStr cid] ++ names name := by
  obtain ⟨hv, rfl⟩ := plain_path h
  rw [setup_transfer, List.append_assoc _ ['/'] name]
  exact resolve_below cwd (transfer_ne home) cid (validateName_parts hv)

theorem plain_dir (cwd : List Str) (home : Str) (cid : Nat) :
    resolve cwd ((setup home).transferDir ++ cidStr cid) = resolve cwd (setup home).transferDir ++ [cidStr cid] := by
  rw [setup_transfer, resolve_dir _ (transfer_ne home)]
  have e : homePath home ++ "transfers".toList ++ ['/'] ++ cidStr cid =
    (homePath home ++ "transfers".toList) ++ '/' :: cidStr cid := by simp
  rw [e, resolve_append _ (transfer_ne home), split_plain (slash_not_mem cid)]
  simp [enter_cid]

end Verif.FileStore

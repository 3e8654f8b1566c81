/-!
A finite map as an association list with at most one entry per key; stands for Rust's `HashMap`/`BTreeMap`/
`IndexMap` wherever only `get`/`insert`/`remove`/iteration-as-a-set are used.
-/
namespace Verif

/-- Association list; the operations below keep keys distinct. -/
abbrev AMap (κ α : Type) := List (κ × α)

namespace AMap
variable {κ α : Type} [DecidableEq κ]

/-- `HashMap::get`. -/
def get? : AMap κ α → κ → Option α
  | [], _ => none
  | (k, a) :: m, x => if k = x then some a else get? m x

/-- `HashMap::remove` (the map afterwards). -/
def erase (m : AMap κ α) (x : κ) : AMap κ α := m.filter (fun e => decide (e.1 ≠ x))

/-- `HashMap::insert` (overwrites). -/
def insert (m : AMap κ α) (x : κ) (a : α) : AMap κ α := (x, a) :: erase m x

/-- `HashMap::contains_key`. -/
def contains (m : AMap κ α) (x : κ) : Bool := (m.get? x).isSome

/-- `HashMap::keys`. -/
def keys (m : AMap κ α) : List κ := List.map Prod.fst m

/-- No key twice. -/
def NodupKeys (m : AMap κ α) : Prop := (keys m).Nodup

@[simp] theorem get?_nil (x : κ) : get? ([] : AMap κ α) x = none := rfl

theorem get?_cons (k : κ) (a : α) (m : AMap κ α) (x : κ) :
    get? ((k, a) :: m) x = if k = x then some a else get? m x := rfl

theorem get?_erase (m : AMap κ α) (x y : κ) :
    get? (erase m x) y = if y = x then none else get? m y := by
  induction m with
  | nil => simp [erase]
  | cons e m ih =>
    obtain ⟨k, a⟩ := e
    unfold erase at ih ⊢
    by_cases h : k = x
    · subst h
      simp only [List.filter_cons, ne_eq, not_true_eq_false, decide_false, Bool.false_eq_true, if_false, ih,
        get?_cons]
      by_cases h2 : y = k
      · simp [h2]
      · have : ¬ k = y := fun h => h2 h.symm
        simp [h2, this]
    · simp only [List.filter_cons, ne_eq, h, not_false_eq_true, decide_true, if_true, get?_cons, ih]
      by_cases h2 : k = y
      · subst h2; simp [h]
      · simp [h2]

@[simp] theorem get?_erase_self (m : AMap κ α) (x : κ) : get? (erase m x) x = none := by
  simp [get?_erase]

theorem get?_erase_ne (m : AMap κ α) {x y : κ} (h : y ≠ x) : get? (erase m x) y = get? m y := by
  simp [get?_erase, h]

theorem get?_insert (m : AMap κ α) (x : κ) (a : α) (y : κ) :
    get? (insert m x a) y = if y = x then some a else get? m y := by
  unfold insert
  rw [get?_cons, get?_erase]
  by_cases h : y = x
  · simp [h]
  · have : ¬ x = y := fun h' => h h'.symm
    simp [h, this]

@[simp] theorem get?_insert_self (m : AMap κ α) (x : κ) (a : α) : get? (insert m x a) x = some a := by
  simp [get?_insert]

theorem get?_insert_ne (m : AMap κ α) {x y : κ} (a : α) (h : y ≠ x) :
    get? (insert m x a) y = get? m y := by
  simp [get?_insert, h]

theorem mem_keys_iff (m : AMap κ α) (x : κ) : x ∈ keys m ↔ (get? m x).isSome := by
  induction m with
  | nil => simp [keys]
  | cons e m ih =>
    obtain ⟨k, a⟩ := e
    simp only [keys, List.map_cons, List.mem_cons, get?_cons] at ih ⊢
    by_cases h : k = x
    · simp [h]
    · have : ¬ x = k := fun h' => h h'.symm
      simp only [this, false_or, h, if_false]; exact ih

theorem get?_eq_none_iff (m : AMap κ α) (x : κ) : get? m x = none ↔ x ∉ keys m := by
  rw [mem_keys_iff]; cases get? m x <;> simp

theorem get?_mem {m : AMap κ α} {x : κ} {a : α} (h : get? m x = some a) : (x, a) ∈ m := by
  induction m with
  | nil => simp at h
  | cons e m ih =>
    obtain ⟨k, b⟩ := e
    rw [get?_cons] at h
    by_cases hk : k = x
    · simp only [hk, if_true, Option.some.injEq] at h; subst h; subst hk; exact List.mem_cons_self ..
    · simp only [hk, if_false] at h; exact List.mem_cons_of_mem _ (ih h)

theorem nodupKeys_erase {m : AMap κ α} (h : NodupKeys m) (x : κ) : NodupKeys (erase m x) :=
  List.Nodup.sublist (List.Sublist.map _ List.filter_sublist) h

theorem nodupKeys_insert {m : AMap κ α} (h : NodupKeys m) (x : κ) (a : α) : NodupKeys (insert m x a) := by
  show ((x, a) :: erase m x |>.map Prod.fst).Nodup
  rw [List.map_cons, List.nodup_cons]
  refine ⟨?_, nodupKeys_erase h x⟩
  have := (get?_eq_none_iff (erase m x) x).1 (get?_erase_self m x)
  exact this

omit [DecidableEq κ] in
theorem nodupKeys_nil : NodupKeys ([] : AMap κ α) := List.nodup_nil

theorem get?_of_mem {m : AMap κ α} (h : NodupKeys m) {x : κ} {a : α} (hm : (x, a) ∈ m) : get? m x = some a := by
  induction m with
  | nil => cases hm
  | cons e m ih =>
    obtain ⟨k, b⟩ := e
    simp only [NodupKeys, keys, List.map_cons, List.nodup_cons] at h
    rw [get?_cons]
    rcases List.mem_cons.1 hm with h1 | h1
    · cases h1; simp
    · have hk : ¬ k = x := by
        rintro rfl
        exact h.1 (List.mem_map_of_mem (f := Prod.fst) h1)
      simp only [hk, if_false]
      exact ih h.2 h1

theorem length_erase_lt {m : AMap κ α} {x : κ} (h : (get? m x).isSome) : (erase m x).length < m.length := by
  obtain ⟨a, ha⟩ := Option.isSome_iff_exists.1 h
  unfold erase
  refine List.length_filter_lt_length_iff_exists.2 ⟨(x, a), get?_mem ha, by simp⟩

end AMap
end Verif

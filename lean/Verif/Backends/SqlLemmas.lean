import Verif.Backends.RedisLemmas
/-
The SQL store follows the reference.
-/
namespace Verif.Backends
open Verif
namespace Db
set_option linter.unusedSimpArgs false

theorem filter_filter_of_imp {α : Type} {p q : α → Bool} (h : ∀ a, p a = true → q a = true) (l : List α) :
    (l.filter q).filter p = l.filter p := by
  rw [List.filter_filter]
  apply List.filter_congr
  intro a _
  cases hp : p a
  · simp
  · simp [h a hp]

theorem filter_filter_of_not {α : Type} {p q : α → Bool} (h : ∀ a, p a = true → q a = false) (l : List α) :
    (l.filter q).filter p = [] := by
  rw [List.filter_filter, List.filter_eq_nil_iff]
  intro a _
  cases hp : p a
  · simp
  · simp [h a hp]

/-! ### Names -/

theorem isRegistered_eq (d : Db) (c : Cid) : d.isRegistered c = (d.usernameOf c).isSome := by
  unfold isRegistered usernameOf
  cases h : d.cnacs.find? fun r => r.cid = d.enc c with
  | none =>
    rw [List.find?_eq_none] at h
    simpa using h
  | some r =>
    have h1 := List.mem_of_find?_eq_some h
    have h2 := List.find?_some h
    simp only [Option.map_some, Option.isSome_some, List.any_eq_true]
    exact ⟨r, h1, h2⟩

@[simp] theorem enc_eq_iff {d : Db} {a b : Cid} : d.enc a = d.enc b ↔ a = b := bindCid_eq_iff

theorem find_save (d : Db) (a : Acct) (c : Cid) : ∀ l : List CnacRow,
    ((l.map fun r => if r.cid = d.enc a.cid then d.rowOf a else r).find? fun r => r.cid = d.enc c) =
      if c = a.cid then (l.find? fun r => r.cid = d.enc c).map fun _ => d.rowOf a
      else l.find? fun r => r.cid = d.enc c
  | [] => by simp
  | r :: l => by
    have ih := find_save d a c l
    by_cases h : r.cid = d.enc a.cid
    · by_cases hc : c = a.cid
      · subst hc; simp [h, rowOf]
      · have h1 : ¬ d.enc a.cid = d.enc c := by simp [eq_comm, hc]
        rw [if_neg hc] at ih ⊢
        simp [h, rowOf, h1]
        simpa [rowOf] using ih
    · by_cases hc : c = a.cid
      · subst hc
        rw [if_pos rfl] at ih ⊢
        simp [h]
        simpa [rowOf] using ih
      · rw [if_neg hc] at ih ⊢
        by_cases h2 : r.cid = d.enc c
        · rw [List.map_cons, if_neg h, List.find?_cons_of_pos (by simp [h2]), List.find?_cons_of_pos (by simp [h2])]
        · rw [List.map_cons, if_neg h, List.find?_cons_of_neg (by simp [h2]), List.find?_cons_of_neg (by simp [h2])]
          exact ih

theorem find_filter (d : Db) (b c : Cid) (l : List CnacRow) :
    ((l.filter fun r => r.cid ≠ d.enc b).find? fun r => r.cid = d.enc c) =
      if c = b then none else l.find? fun r => r.cid = d.enc c := by
  induction l with
  | nil => simp
  | cons r l ih =>
    by_cases h : r.cid = d.enc b
    · by_cases hc : c = b
      · subst hc; simp [h] at ih ⊢
      · have h1 : ¬ d.enc b = d.enc c := by rw [enc_eq_iff]; exact fun e => hc e.symm
        rw [if_neg hc] at ih ⊢
        simp [h, h1]
        simpa using ih
    · by_cases hc : c = b
      · subst hc
        rw [if_pos rfl] at ih ⊢
        simp [h]
      · rw [if_neg hc] at ih ⊢
        by_cases h2 : r.cid = d.enc c
        · have h3 : ¬ d.enc c = d.enc b := by simpa using hc
          simp [h, h2, h3]
        · simp [h, h2]
          simpa using ih

@[simp] theorem variant_step (d : Db) (o : Op) : (d.step o).1.variant = d.variant := by
  cases o <;> simp only [step]
  case sync s ps =>
    split
    · rfl
    · split
      · have : ∀ (l : List Peer) (d : Db),
            (l.foldl (fun d p => d.insertPeer s p.cid (p.username.getD ['N', 'U', 'L', 'L'])) d).variant = d.variant := by
          intro l
          induction l with
          | nil => intro d; rfl
          | cons p l ih => intro d; rw [List.foldl_cons, ih]; rfl
        rw [this]
      · rfl
  all_goals (repeat' split) <;> rfl

theorem sync_fold (s : Cid) : ∀ (l : List Peer) (d : Db),
    l.foldl (fun d p => d.insertPeer s p.cid (p.username.getD ['N', 'U', 'L', 'L'])) d =
      { d with peers := d.peers ++ l.map fun p => ⟨d.enc p.cid, p.username.getD ['N', 'U', 'L', 'L'], d.enc s⟩ }
  | [], d => by simp
  | p :: l, d => by
    rw [List.foldl_cons, sync_fold s l]
    simp [insertPeer, enc]

/-- Operations that leave the accounts alone. -/
theorem cnacs_step (d : Db) (o : Op) (h : ∀ a, o ≠ .save a) (h' : ∀ c, o ≠ .delete c) (h'' : o ≠ .purge) :
    (d.step o).1.cnacs = d.cnacs := by
  cases o <;> simp only [step]
  case save a => exact absurd rfl (h a)
  case delete c => exact absurd rfl (h' c)
  case purge => exact absurd rfl h''
  case sync s ps =>
    split
    · rfl
    · split
      · rw [sync_fold]
      · rfl
  all_goals (repeat' split) <;> rfl

theorem usernameOf_congr {d d' : Db} (h : d'.cnacs = d.cnacs) (hv : d'.variant = d.variant) (c : Cid) :
    d'.usernameOf c = d.usernameOf c := by
  unfold usernameOf enc; rw [h, hv]

theorem name_step {w : Ref} {o : Op} (h : ∀ a, o ≠ .save a) (h' : ∀ c, o ≠ .delete c) (h'' : o ≠ .purge) :
    (w.step o).name = w.name := by
  cases o <;> simp only [Ref.step]
  case save a => exact absurd rfl (h a)
  case delete c => exact absurd rfl (h' c)
  case purge => exact absurd rfl h''
  all_goals split <;> rfl

/-- The accounts follow the reference. -/
def Named (w : Ref) (d : Db) : Prop := ∀ c, d.usernameOf c = w.name c

theorem Named.registered {w : Ref} {d : Db} (h : Named w d) (c : Cid) : d.isRegistered c = (w.name c).isSome := by
  rw [isRegistered_eq, h c]

theorem Named.step {w : Ref} {d : Db} (h : Named w d) (o : Op) : Named (w.step o) (d.step o).1 := by
  intro c
  by_cases h1 : ∃ a, o = .save a
  · obtain ⟨a, rfl⟩ := h1
    simp only [Db.step, Ref.step]
    have hr := h.registered a.cid
    split
    · rename_i hreg
      unfold usernameOf
      show ((List.find? (fun r : CnacRow => decide (r.cid = d.enc c)) (d.cnacs.map _)).map _) = _
      rw [find_save d a c d.cnacs]
      split
      · rename_i hc
        subst hc
        rw [isRegistered_eq] at hreg
        unfold usernameOf at hreg
        cases hf : d.cnacs.find? fun r => r.cid = d.enc a.cid with
        | none => rw [hf] at hreg; simp at hreg
        | some r => simp [rowOf]
      · exact h c
    · rename_i hreg
      unfold usernameOf
      show ((List.find? (fun r : CnacRow => decide (r.cid = d.enc c)) (d.cnacs ++ [d.rowOf a])).map _) = _
      rw [List.find?_append]
      have hc := h c
      unfold usernameOf at hc
      split
      · rename_i e
        subst e
        rw [isRegistered_eq] at hreg
        unfold usernameOf at hreg
        cases hf : d.cnacs.find? fun r => r.cid = d.enc a.cid with
        | none => simp [rowOf]
        | some r => rw [hf] at hreg; simp at hreg
      · rename_i e
        rw [← hc]
        have : ¬ d.enc a.cid = d.enc c := by simp [eq_comm, e]
        simp [rowOf, this]
  · by_cases h2 : ∃ b, o = .delete b
    · obtain ⟨b, rfl⟩ := h2
      simp only [Db.step, Ref.step, h.registered]
      split
      · unfold usernameOf
        show ((List.find? (fun r : CnacRow => decide (r.cid = d.enc c)) (d.cnacs.filter _)).map _) = _
        rw [find_filter]
        by_cases e : c = b
        · simp [e]
        · simp only [if_neg e]
          exact h c
      · exact h c
    · by_cases h3 : o = .purge
      · subst h3; rfl
      · have a1 : ∀ a, o ≠ .save a := fun a e => h1 ⟨a, e⟩
        have a2 : ∀ b, o ≠ .delete b := fun b e => h2 ⟨b, e⟩
        rw [usernameOf_congr (cnacs_step d o a1 a2 h3) (variant_step d o), name_step a1 a2 h3]
        exact h c

theorem Named.empty (v : Variant) : Named Ref.empty (Db.empty v) := fun _ => rfl

/-! ### Byte map -/

/-- The row that holds the value of the reference. -/
def byteRow (d : Db) (x : Slot) (v : Str) : ByteRow := ⟨d.enc x.session, d.enc x.peer, x.key, x.sub, v⟩

/-- The condition of the queries for one slot. -/
def isSlot (v : Variant) (x : Slot) (r : ByteRow) : Bool :=
  decide (r.cid = bindCid v x.session ∧ r.peer = bindCid v x.peer ∧ r.id = x.key ∧ r.sub = x.sub)

theorem byteRows_eq (d : Db) (x : Slot) : d.byteRows x = d.bytes.filter (isSlot d.variant x) := rfl

theorem of_isSlot {d : Db} {x : Slot} {r : ByteRow} (h : isSlot d.variant x r = true) :
    r.cid = d.enc x.session ∧ r.peer = d.enc x.peer ∧ r.id = x.key ∧ r.sub = x.sub := of_decide_eq_true h

/-- One row for every value of the reference and no other. -/
structure SByte (w : Ref) (d : Db) : Prop where
  named : Named w d
  rows : ∀ x, d.byteRows x = (w.byte x).toList.map (d.byteRow x)
  form : ∀ r ∈ d.bytes, ∃ x v, r = d.byteRow x v

theorem byteRows_congr {d d' : Db} (h : d'.bytes = d.bytes) (hv : d'.variant = d.variant) (x : Slot) :
    d'.byteRows x = d.byteRows x := by
  unfold byteRows enc; rw [h, hv]

theorem byteRow_congr {d d' : Db} (hv : d'.variant = d.variant) (x : Slot) (v : Str) :
    d'.byteRow x v = d.byteRow x v := by
  unfold byteRow enc; rw [hv]

theorem SByte.same {w w' : Ref} {d d' : Db} (h : SByte w d) (hn : Named w' d') (hb : w'.byte = w.byte)
    (hd : d'.bytes = d.bytes) (hv : d'.variant = d.variant) : SByte w' d' := by
  refine ⟨hn, fun x => ?_, fun r hr => ?_⟩
  · rw [byteRows_congr hd hv, h.rows, hb]
    congr 1
    funext v
    exact (byteRow_congr hv x v).symm
  · rw [hd] at hr
    obtain ⟨x, v, e⟩ := h.form r hr
    exact ⟨x, v, e.trans (byteRow_congr hv x v).symm⟩

theorem slot_eq_iff {x y : Slot} : (x.session = y.session ∧ x.peer = y.peer ∧ x.key = y.key ∧ x.sub = y.sub) ↔ x = y := by
  cases x; cases y; simp

theorem SByte.step {w : Ref} {d : Db} (o : Op) (hp : NoOverwrite w o) (h : SByte w d) :
    SByte (w.step o) (d.step o).1 := by
  have hn := h.named.step o
  have hv := variant_step d o
  cases o with
  | save a =>
    refine h.same hn rfl ?_ hv
    simp only [Db.step]; split <;> rfl
  | purge => exact ⟨hn, fun x => rfl, fun r hr => absurd hr List.not_mem_nil⟩
  | regServer a b =>
    refine h.same hn ?_ ?_ hv
    · simp only [Ref.step]; split <;> rfl
    · simp only [Db.step]; split <;> rfl
  | regClient s p n =>
    refine h.same hn ?_ ?_ hv
    · simp only [Ref.step]; split <;> rfl
    · simp only [Db.step]; split <;> rfl
  | deregServer a b => exact h.same hn rfl rfl hv
  | deregClient s p => exact h.same hn rfl rfl hv
  | sync s ps =>
    refine h.same hn ?_ ?_ hv
    · simp only [Ref.step]; split <;> rfl
    · simp only [Db.step]
      split
      · rfl
      · split
        · rw [sync_fold]
        · rfl
  | delete c =>
    have hr := h.named.registered c
    by_cases hc : (w.name c).isSome
    · refine ⟨hn, fun x => ?_, fun r hr' => ?_⟩
      · have hx := h.rows x
        simp only [Db.step, Ref.step, hr, hc, if_true]
        show (List.filter (isSlot d.variant x) (d.bytes.filter fun r => r.cid ≠ d.enc c)) = _
        by_cases e : x.session = c
        · rw [if_pos e]
          refine filter_filter_of_not (fun r hr'' => ?_) _
          have : r.cid = d.enc x.session := (of_isSlot hr'').1
          simp [this, e]
        · rw [if_neg e]
          refine (filter_filter_of_imp (fun r hr'' => ?_) _).trans hx
          have : r.cid = d.enc x.session := (of_isSlot hr'').1
          simp [this, e]
      · simp only [Db.step, hr, hc, if_true] at hr'
        obtain ⟨x, v, e⟩ := h.form r (List.mem_filter.mp hr').1
        exact ⟨x, v, e.trans (byteRow_congr hv x v).symm⟩
    · have e1 : (d.step (.delete c)).1 = d := by simp only [Db.step, hr]; simp [hc]
      have e2 : w.step (.delete c) = w := by simp [Ref.step, hc]
      rw [e1, e2]; exact h
  | store y v =>
    have hr := h.named.registered y.session
    by_cases hc : (w.name y.session).isSome
    · refine ⟨hn, fun x => ?_, fun r hr' => ?_⟩
      · have hx := h.rows x
        simp only [Db.step, Ref.step, hr, hc, if_true]
        show (List.filter (isSlot d.variant x) (d.bytes ++ [d.byteRow y v])) = _
        rw [List.filter_append]
        rw [← byteRows_eq, hx]
        by_cases e : x = y
        · subst e
          have hp : w.byte x = none := hp
          rw [if_pos rfl, hp]
          simp only [Option.toList_none, List.map_nil, List.nil_append, Option.toList_some, List.map_cons]
          rw [List.filter_cons_of_pos (by simp [byteRow, enc, isSlot])]
          rfl
        · rw [if_neg e, List.filter_cons_of_neg]
          · simp only [List.filter_nil, List.append_nil]; rfl
          · intro hs
            obtain ⟨a1, a2, a3, a4⟩ := of_isSlot hs
            simp only [byteRow] at a1 a2 a3 a4
            exact e (slot_eq_iff.mp ⟨(enc_eq_iff.mp a1).symm, (enc_eq_iff.mp a2).symm, a3.symm, a4.symm⟩)
      · simp only [Db.step, hr, hc, if_true] at hr'
        rcases List.mem_append.mp hr' with m | m
        · obtain ⟨x, v, e⟩ := h.form r m
          exact ⟨x, v, e.trans (byteRow_congr hv x v).symm⟩
        · exact ⟨y, v, (List.mem_singleton.mp m).trans (byteRow_congr hv y v).symm⟩
    · have e1 : (d.step (.store y v)).1 = d := by simp only [Db.step, hr]; simp [hc]
      have e2 : w.step (.store y v) = w := by simp [Ref.step, hc]
      rw [e1, e2]; exact h
  | remove y =>
    refine ⟨hn, fun x => ?_, fun r hr' => ?_⟩
    · have hx := h.rows x
      simp only [Db.step, Ref.step]
      show (List.filter (isSlot d.variant x) (d.bytes.filter _)) = _
      by_cases e : x = y
      · subst e
        rw [if_pos rfl]
        refine filter_filter_of_not (fun r hr'' => ?_) _
        have := of_isSlot hr''
        simp [this]
      · rw [if_neg e]
        refine (filter_filter_of_imp (fun r hr'' => ?_) _).trans hx
        have := of_isSlot hr''
        simp only [decide_eq_true_eq, this, enc_eq_iff]
        exact fun h => e (slot_eq_iff.mp h)
    · obtain ⟨x, v, e⟩ := h.form r (List.mem_filter.mp hr').1
      exact ⟨x, v, e.trans (byteRow_congr hv x v).symm⟩
  | removeAll s p key =>
    refine ⟨hn, fun x => ?_, fun r hr' => ?_⟩
    · have hx := h.rows x
      simp only [Db.step, Ref.step]
      show (List.filter (isSlot d.variant x) (d.bytes.filter _)) = _
      by_cases e : x.session = s ∧ x.peer = p ∧ x.key = key
      · rw [if_pos e]
        refine filter_filter_of_not (fun r hr'' => ?_) _
        have := of_isSlot hr''
        simp [this, e]
      · rw [if_neg e]
        refine (filter_filter_of_imp (fun r hr'' => ?_) _).trans hx
        have := of_isSlot hr''
        simp only [decide_eq_true_eq, this, enc_eq_iff]
        exact e
    · obtain ⟨x, v, e⟩ := h.form r (List.mem_filter.mp hr').1
      exact ⟨x, v, e.trans (byteRow_congr hv x v).symm⟩

theorem SByte.empty (v : Variant) : SByte Ref.empty (Db.empty v) :=
  ⟨Named.empty v, fun _ => rfl, fun _ h => absurd h List.not_mem_nil⟩

end Db
end Verif.Backends

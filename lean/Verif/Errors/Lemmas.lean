import Verif.Errors.Spec
namespace Verif.Errors

theorem ob_ne_cb : ob ≠ cb := by decide

theorem at?_length (p : Text) (t : Text) : at? (p ++ t) p.length = t[0]? := by
  simp [at?, List.getElem?_append_right]

theorem at?_length_add (p : Text) (t : Text) (n : Nat) : at? (p ++ t) (p.length + n) = t[n]? := by
  simp [at?, List.getElem?_append_right]

/-! ### Characters -/

theorem Utf8.head {t : Text} (h : Utf8 t) : boundary t 0 = true := by
  cases h <;> simp [boundary, at?] <;> omega

theorem boundary_cons (a : Nat) (t : Text) (i : Nat) : boundary (a :: t) (i + 1) = boundary t i := by
  simp [boundary, at?]

theorem Utf8.next {t : Text} (h : Utf8 t) : ∀ {i b : Nat}, at? t i = some b → b < 128 → boundary t (i + 1) = true := by
  induction h with
  | nil => intro i b h; simp [at?] at h
  | one ha ht ih =>
    intro i b h hb
    rw [boundary_cons]
    cases i with
    | zero => exact ht.head
    | succ i => exact ih (by simpa [at?] using h) hb
  | two h1 h2 h3 h4 ht ih =>
    intro i b h hb
    match i with
    | 0 => simp [at?] at h; omega
    | 1 => simp [at?] at h; omega
    | i + 2 =>
      rw [boundary_cons, boundary_cons]
      exact ih (by simpa [at?] using h) hb
  | three h1 h2 h3 h4 h5 h6 ht ih =>
    intro i b h hb
    match i with
    | 0 => simp [at?] at h; omega
    | 1 => simp [at?] at h; omega
    | 2 => simp [at?] at h; omega
    | i + 3 =>
      rw [boundary_cons, boundary_cons, boundary_cons]
      exact ih (by simpa [at?] using h) hb
  | four h1 h2 h3 h4 h5 h6 h7 h8 ht ih =>
    intro i b h hb
    match i with
    | 0 => simp [at?] at h; omega
    | 1 => simp [at?] at h; omega
    | 2 => simp [at?] at h; omega
    | 3 => simp [at?] at h; omega
    | i + 4 =>
      rw [boundary_cons, boundary_cons, boundary_cons, boundary_cons]
      exact ih (by simpa [at?] using h) hb

theorem boundary_of_ascii {t : Text} {i b : Nat} (h : at? t i = some b) (hb : b < 128) : boundary t i = true := by
  simp only [boundary, h]
  simp; omega

theorem boundary_end (t : Text) : boundary t t.length = true := by
  simp [boundary, at?]

theorem slice_of {t : Text} {a b : Nat} (h : a ≤ b) (ha : boundary t a = true) (hb : boundary t b = true) :
    slice t a b = some ((t.drop a).take (b - a)) := by simp [slice, h, ha, hb]

theorem slice_prefix {p t : Text} {a : Nat} (h : a ≤ p.length) (ha : boundary (p ++ t) a = true)
    (hb : boundary (p ++ t) p.length = true) : slice (p ++ t) a p.length = some (p.drop a) := by
  rw [slice_of h ha hb, List.drop_append_of_le_length h]
  congr 1
  rw [List.take_append_of_le_length (by simp), List.take_of_length_le (by simp)]

/-! ### The scan of `count_placeholders` -/

theorem countFrom_text (ps : List Piece) (hp : Plain ps) : ∀ (p : Text) (n : Nat),
    countFrom (p ++ text ps) p.length n = some (n + slots ps) := by
  induction ps with
  | nil =>
    intro p n
    rw [countFrom]
    have : at? (p ++ text []) p.length = none := by simp [text, at?]
    split
    · simp [slots]
    · simp_all
  | cons x ps ih =>
    intro p n
    have hps : Plain ps := fun q hq => hp q (List.mem_cons_of_mem _ hq)
    have e : text (x :: ps) = x.text ++ text ps := by simp [text]
    have step := ih hps (p ++ x.text)
    rw [e, ← List.append_assoc]
    rw [countFrom]
    cases x with
    | lit b =>
      have hb := hp (.lit b) (by simp)
      simp only [Piece.plain] at hb
      have h0 : at? (p ++ Piece.text (.lit b) ++ text ps) p.length = some b := by
        rw [List.append_assoc, at?_length]; rfl
      split
      · simp_all
      · rename_i b' h1
        rw [h0] at h1; cases h1
        rw [if_neg hb.1, if_neg hb.2]
        have := step n
        simp only [Piece.text, List.length_append, List.length_cons, List.length_nil] at this
        simp only [Piece.text]
        rw [this]; simp [slots]
    | open' =>
      have h0 : at? (p ++ Piece.text .open' ++ text ps) p.length = some ob := by
        rw [List.append_assoc, at?_length]; rfl
      have h1 : at? (p ++ Piece.text .open' ++ text ps) (p.length + 1) = some ob := by
        rw [List.append_assoc, at?_length_add]; rfl
      split
      · simp_all
      · rename_i b' h2
        rw [h0] at h2; cases h2
        rw [if_pos rfl, if_pos h1]
        have := step n
        simp only [Piece.text, List.length_append, List.length_cons, List.length_nil] at this
        simp only [Piece.text]
        rw [this]; simp [slots]
    | close =>
      have h0 : at? (p ++ Piece.text .close ++ text ps) p.length = some cb := by
        rw [List.append_assoc, at?_length]; rfl
      have h1 : at? (p ++ Piece.text .close ++ text ps) (p.length + 1) = some cb := by
        rw [List.append_assoc, at?_length_add]; rfl
      split
      · simp_all
      · rename_i b' h2
        rw [h0] at h2; cases h2
        rw [if_neg (by decide), if_pos rfl, if_pos h1]
        have := step n
        simp only [Piece.text, List.length_append, List.length_cons, List.length_nil] at this
        simp only [Piece.text]
        rw [this]; simp [slots]
    | slot =>
      have h0 : at? (p ++ Piece.text .slot ++ text ps) p.length = some ob := by
        rw [List.append_assoc, at?_length]; rfl
      have h1 : at? (p ++ Piece.text .slot ++ text ps) (p.length + 1) = some cb := by
        rw [List.append_assoc, at?_length_add]; rfl
      split
      · simp_all
      · rename_i b' h2
        rw [h0] at h2; cases h2
        rw [if_pos rfl, if_neg (by rw [h1]; decide), if_pos h1]
        have := step (n + 1)
        simp only [Piece.text, List.length_append, List.length_cons, List.length_nil] at this
        simp only [Piece.text]
        rw [this]; simp [slots]; omega

theorem drop_eq_cons {t : Text} {i b : Nat} (h : at? t i = some b) : t.drop i = b :: t.drop (i + 1) := by
  obtain ⟨hi, rfl⟩ := List.getElem?_eq_some_iff.mp h
  exact List.drop_eq_getElem_cons hi

theorem of_countFrom (t : Text) (i n : Nat) : ∀ {m}, countFrom t i n = some m →
    ∃ ps, Plain ps ∧ text ps = t.drop i ∧ m = n + slots ps := by
  induction i, n using countFrom.induct (t := t) with
  | case1 i n h =>
    intro m hm
    rw [countFrom] at hm
    split at hm
    · cases hm
      refine ⟨[], by simp [Plain], ?_, by simp [slots]⟩
      have : t.length ≤ i := by simpa [at?] using h
      simp [text, List.drop_eq_nil_of_le this]
    · simp_all
  | case2 i n h1 h ih =>
    intro m hm
    rw [countFrom] at hm
    split at hm
    · simp_all
    · rename_i b' h2
      rw [h] at h2; cases h2
      rw [if_pos rfl, if_pos h1] at hm
      obtain ⟨ps, hp, ht, hn⟩ := ih hm
      refine ⟨.open' :: ps, ?_, ?_, ?_⟩
      · intro q hq; rcases List.mem_cons.mp hq with rfl | hq
        · trivial
        · exact hp q hq
      · rw [drop_eq_cons h, drop_eq_cons h1, ← ht]; simp [text, Piece.text]
      · rw [hn]; simp [slots]
  | case3 i n h1 h2 h ih =>
    intro m hm
    rw [countFrom] at hm
    split at hm
    · simp_all
    · rename_i b' h3
      rw [h] at h3; cases h3
      rw [if_pos rfl, if_neg h1, if_pos h2] at hm
      obtain ⟨ps, hp, ht, hn⟩ := ih hm
      refine ⟨.slot :: ps, ?_, ?_, ?_⟩
      · intro q hq; rcases List.mem_cons.mp hq with rfl | hq
        · trivial
        · exact hp q hq
      · rw [drop_eq_cons h, drop_eq_cons h2, ← ht]; simp [text, Piece.text]
      · rw [hn]; simp [slots]; omega
  | case4 i n h1 h2 h =>
    intro m hm
    rw [countFrom] at hm
    split at hm
    · simp_all
    · rename_i b' h3
      rw [h] at h3; cases h3
      rw [if_pos rfl, if_neg h1, if_neg h2] at hm
      exact absurd hm (by simp)
  | case5 i n h1 h h0 ih =>
    intro m hm
    rw [countFrom] at hm
    split at hm
    · simp_all
    · rename_i b' h3
      rw [h] at h3; cases h3
      rw [if_neg h0, if_pos rfl, if_pos h1] at hm
      obtain ⟨ps, hp, ht, hn⟩ := ih hm
      refine ⟨.close :: ps, ?_, ?_, ?_⟩
      · intro q hq; rcases List.mem_cons.mp hq with rfl | hq
        · trivial
        · exact hp q hq
      · rw [drop_eq_cons h, drop_eq_cons h1, ← ht]; simp [text, Piece.text]
      · rw [hn]; simp [slots]
  | case6 i n h1 h h0 =>
    intro m hm
    rw [countFrom] at hm
    split at hm
    · simp_all
    · rename_i b' h3
      rw [h] at h3; cases h3
      rw [if_neg h0, if_pos rfl, if_neg h1] at hm
      exact absurd hm (by simp)
  | case7 i n b h h0 h1 ih =>
    intro m hm
    rw [countFrom] at hm
    split at hm
    · simp_all
    · rename_i b' h3
      rw [h] at h3; cases h3
      rw [if_neg h0, if_neg h1] at hm
      obtain ⟨ps, hp, ht, hn⟩ := ih hm
      refine ⟨.lit b :: ps, ?_, ?_, ?_⟩
      · intro q hq; rcases List.mem_cons.mp hq with rfl | hq
        · exact ⟨h0, h1⟩
        · exact hp q hq
      · rw [drop_eq_cons h, ← ht]; simp [text, Piece.text]
      · rw [hn]; simp [slots]

/-! ### The scan of `render` -/

theorem renderFrom_text (args : List Text) (ps : List Piece) (hp : Plain ps) : ∀ (p : Text) (run k : Nat) (out : Text),
    Utf8 (p ++ text ps) → run ≤ p.length → boundary (p ++ text ps) run = true →
    renderFrom (p ++ text ps) args p.length run k out = some (out ++ p.drop run ++ fill ps (args.drop k)) := by
  induction ps with
  | nil =>
    intro p run k out hu hr hb
    rw [renderFrom]
    have hend : boundary (p ++ text []) p.length = true := by simpa [text] using boundary_end p
    have h0 : at? (p ++ text []) p.length = none := by simp [text, at?]
    split
    · have := slice_prefix hr hb hend
      simp only [text, List.flatMap_nil, List.append_nil] at this ⊢
      rw [this]; simp [fill]
    · simp_all
  | cons x ps ih =>
    intro p run k out hu hr hb
    have hps : Plain ps := fun q hq => hp q (List.mem_cons_of_mem _ hq)
    have e : text (x :: ps) = x.text ++ text ps := by simp [text]
    have e2 : p ++ text (x :: ps) = (p ++ x.text) ++ text ps := by rw [e, List.append_assoc]
    rw [e2] at hu hb ⊢
    have step := ih hps (p ++ x.text)
    rw [renderFrom]
    cases x with
    | lit b =>
      have hb' := hp (.lit b) (by simp)
      simp only [Piece.plain] at hb'
      have h0 : at? (p ++ Piece.text (.lit b) ++ text ps) p.length = some b := by
        rw [List.append_assoc, at?_length]; rfl
      split
      · simp_all
      · rename_i b' h1
        rw [h0] at h1; cases h1
        rw [if_neg (fun h => hb'.1 h.1), if_neg (fun h => hb'.1 h.1), if_neg (fun h => hb'.2 h.1)]
        have := step run k out hu (by simp; omega) hb
        simp only [Piece.text, List.length_append, List.length_cons, List.length_nil] at this ⊢
        rw [this, List.drop_append_of_le_length hr]; simp [fill]
    | open' =>
      have h0 : at? (p ++ Piece.text .open' ++ text ps) p.length = some ob := by
        rw [List.append_assoc, at?_length]; rfl
      have h1 : at? (p ++ Piece.text .open' ++ text ps) (p.length + 1) = some ob := by
        rw [List.append_assoc, at?_length_add]; rfl
      have hs : slice (p ++ Piece.text .open' ++ text ps) run p.length = some (p.drop run) := by
        rw [List.append_assoc] at hb h0 ⊢
        exact slice_prefix hr hb (boundary_of_ascii h0 (by decide))
      have hn := hu.next h1 (by decide)
      split
      · simp_all
      · rename_i b' h2
        rw [h0] at h2; cases h2
        rw [if_pos ⟨rfl, h1⟩, hs]
        have := step (p.length + 2) k (out ++ p.drop run ++ [ob]) hu (by simp [Piece.text]) hn
        simp only [Piece.text, List.length_append, List.length_cons, List.length_nil] at this ⊢
        rw [this]; simp [fill]
    | close =>
      have h0 : at? (p ++ Piece.text .close ++ text ps) p.length = some cb := by
        rw [List.append_assoc, at?_length]; rfl
      have h1 : at? (p ++ Piece.text .close ++ text ps) (p.length + 1) = some cb := by
        rw [List.append_assoc, at?_length_add]; rfl
      have hs : slice (p ++ Piece.text .close ++ text ps) run p.length = some (p.drop run) := by
        rw [List.append_assoc] at hb h0 ⊢
        exact slice_prefix hr hb (boundary_of_ascii h0 (by decide))
      have hn := hu.next h1 (by decide)
      split
      · simp_all
      · rename_i b' h2
        rw [h0] at h2; cases h2
        rw [if_neg (fun h => ob_ne_cb h.1.symm), if_neg (fun h => ob_ne_cb h.1.symm), if_pos ⟨rfl, h1⟩, hs]
        have := step (p.length + 2) k (out ++ p.drop run ++ [cb]) hu (by simp [Piece.text]) hn
        simp only [Piece.text, List.length_append, List.length_cons, List.length_nil] at this ⊢
        rw [this]; simp [fill]
    | slot =>
      have h0 : at? (p ++ Piece.text .slot ++ text ps) p.length = some ob := by
        rw [List.append_assoc, at?_length]; rfl
      have h1 : at? (p ++ Piece.text .slot ++ text ps) (p.length + 1) = some cb := by
        rw [List.append_assoc, at?_length_add]; rfl
      have hs : slice (p ++ Piece.text .slot ++ text ps) run p.length = some (p.drop run) := by
        rw [List.append_assoc] at hb h0 ⊢
        exact slice_prefix hr hb (boundary_of_ascii h0 (by decide))
      have hn := hu.next h1 (by decide)
      split
      · simp_all
      · rename_i b' h2
        rw [h0] at h2; cases h2
        rw [if_neg (fun h => ob_ne_cb (Option.some.inj (h.2.symm.trans h1))), if_pos ⟨rfl, h1⟩, hs]
        cases ha : args[k]? with
        | some a =>
          have := step (p.length + 2) (k + 1) (out ++ p.drop run ++ a) hu (by simp [Piece.text]) hn
          simp only [Piece.text, List.length_append, List.length_cons, List.length_nil] at this ⊢
          obtain ⟨hk, rfl⟩ := List.getElem?_eq_some_iff.mp ha
          rw [this, List.drop_eq_getElem_cons hk]; simp [fill]
        | none =>
          have := step (p.length + 2) k (out ++ p.drop run ++ [ob, cb]) hu (by simp [Piece.text]) hn
          simp only [Piece.text, List.length_append, List.length_cons, List.length_nil] at this ⊢
          have hk : args.drop k = [] := List.drop_eq_nil_of_le (by simpa using ha)
          rw [this, hk]; simp [fill]

theorem lt_of_at? {t : Text} {i b : Nat} (h : at? t i = some b) : i < t.length :=
  (List.getElem?_eq_some_iff.mp h).1

theorem renderFrom_some {t : Text} (hu : Utf8 t) (args : List Text) : ∀ (n i run k : Nat) (out : Text),
    t.length - i ≤ n → i ≤ t.length → run ≤ i → boundary t run = true → ∃ o, renderFrom t args i run k out = some o := by
  intro n
  induction n with
  | zero =>
    intro i run k out hn hi hr hb
    rw [renderFrom]
    split
    · rw [slice_of (by omega) hb (boundary_end t)]; exact ⟨_, rfl⟩
    · rename_i b h
      have := lt_of_at? h; omega
  | succ n ih =>
    intro i run k out hn hi hr hb
    rw [renderFrom]
    split
    · rw [slice_of (by omega) hb (boundary_end t)]; exact ⟨_, rfl⟩
    · rename_i b h
      split
      · rename_i hc
        obtain ⟨rfl, h1⟩ := hc
        have := lt_of_at? h1
        rw [slice_of hr hb (boundary_of_ascii h (by decide))]
        exact ih _ _ _ _ (by omega) (by omega) (Nat.le_refl _) (hu.next h1 (by decide))
      · split
        · rename_i hc
          obtain ⟨rfl, h1⟩ := hc
          have := lt_of_at? h1
          rw [slice_of hr hb (boundary_of_ascii h (by decide))]
          dsimp only
          split
          · exact ih _ _ _ _ (by omega) (by omega) (Nat.le_refl _) (hu.next h1 (by decide))
          · exact ih _ _ _ _ (by omega) (by omega) (Nat.le_refl _) (hu.next h1 (by decide))
        · split
          · rename_i hc
            obtain ⟨rfl, h1⟩ := hc
            have := lt_of_at? h1
            rw [slice_of hr hb (boundary_of_ascii h (by decide))]
            exact ih _ _ _ _ (by omega) (by omega) (Nat.le_refl _) (hu.next h1 (by decide))
          · have := lt_of_at? h
            exact ih _ _ _ _ (by omega) (by omega) (by omega) hb

/-! ### Reading a form as pieces -/

/-- The pieces of a text, if it is the writing of some. -/
def pieces? : Text → Option (List Piece)
  | [] => some []
  | a :: t =>
    if a = ob then
      match t with
      | [] => none
      | b :: t' => if b = ob then (pieces? t').map (.open' :: ·) else if b = cb then (pieces? t').map (.slot :: ·) else none
    else if a = cb then
      match t with
      | [] => none
      | b :: t' => if b = cb then (pieces? t').map (.close :: ·) else none
    else (pieces? t).map (.lit a :: ·)

theorem pieces?_lit {a : Nat} (t : Text) (h : a ≠ ob) (h' : a ≠ cb) : pieces? (a :: t) = (pieces? t).map (.lit a :: ·) := by
  cases t <;> simp [pieces?, h, h']

theorem pieces?_text : ∀ (ps : List Piece), Plain ps → pieces? (text ps) = some ps
  | [], _ => rfl
  | p :: ps, h => by
    have ih := pieces?_text ps (fun q hq => h q (List.mem_cons_of_mem _ hq))
    have e : text (p :: ps) = p.text ++ text ps := by simp [text]
    rw [e]
    cases p with
    | lit b =>
      have hb := h (.lit b) (by simp)
      simp only [Piece.plain] at hb
      simp only [Piece.text, List.cons_append, List.nil_append]
      rw [pieces?_lit _ hb.1 hb.2, ih]; rfl
    | open' => simp [Piece.text, pieces?, ih]
    | close => simp [Piece.text, pieces?, ih, ob_ne_cb.symm]
    | slot => simp [Piece.text, pieces?, ih, ob_ne_cb.symm]

theorem of_pieces? : ∀ (t : Text) (ps : List Piece), pieces? t = some ps → Plain ps ∧ text ps = t
  | [], ps, h => by
    simp only [pieces?, Option.some.injEq] at h
    subst h; exact ⟨by simp [Plain], rfl⟩
  | [a], ps, h => by
    simp only [pieces?] at h
    split at h
    · exact absurd h (by simp)
    · split at h
      · exact absurd h (by simp)
      · simp only [Option.map_some, Option.some.injEq] at h
        subst h
        refine ⟨?_, rfl⟩
        intro q hq
        simp only [List.mem_cons, List.not_mem_nil, or_false] at hq
        subst hq; exact ⟨by assumption, by assumption⟩
  | a :: b :: t, ps, h => by
    rw [pieces?] at h
    split at h
    · subst a
      split at h
      · subst b
        cases h1 : pieces? t with
        | none => simp [h1] at h
        | some qs =>
          simp only [h1, Option.map_some, Option.some.injEq] at h
          subst h
          obtain ⟨hp, ht⟩ := of_pieces? t qs h1
          exact ⟨by simpa [Plain, Piece.plain] using hp, by simp [text, Piece.text] at ht ⊢; exact ht⟩
      · split at h
        · subst b
          cases h1 : pieces? t with
          | none => simp [h1] at h
          | some qs =>
            simp only [h1, Option.map_some, Option.some.injEq] at h
            subst h
            obtain ⟨hp, ht⟩ := of_pieces? t qs h1
            exact ⟨by simpa [Plain, Piece.plain] using hp, by simp [text, Piece.text] at ht ⊢; exact ht⟩
        · exact absurd h (by simp)
    · split at h
      · subst a
        split at h
        · subst b
          cases h1 : pieces? t with
          | none => simp [h1] at h
          | some qs =>
            simp only [h1, Option.map_some, Option.some.injEq] at h
            subst h
            obtain ⟨hp, ht⟩ := of_pieces? t qs h1
            exact ⟨by simpa [Plain, Piece.plain] using hp, by simp [text, Piece.text] at ht ⊢; exact ht⟩
        · exact absurd h (by simp)
      · rename_i hc ho
        cases h1 : pieces? (b :: t) with
        | none => simp [h1] at h
        | some qs =>
          simp only [h1, Option.map_some, Option.some.injEq] at h
          subst h
          obtain ⟨hp, ht⟩ := of_pieces? (b :: t) qs h1
          refine ⟨?_, by simp [text, Piece.text] at ht ⊢; exact ht⟩
          intro q hq
          rcases List.mem_cons.mp hq with rfl | hq
          · exact ⟨by assumption, by assumption⟩
          · exact hp q hq

end Verif.Errors

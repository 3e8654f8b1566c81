import Verif.Errors.Lemmas
import Verif.Errors.Registry
/-!
Messages of errors: what is counted at compile time is what is filled when the error is shown.
-/
namespace Verif.Errors

/-! ### C165: the scan at compile time -/

/-- A form is accepted with `n` placeholders if and only if it is the writing of pieces with `n` slots: text without braces,
doubled braces and `{}`. -/
theorem C165_accepts (t : Text) (n : Nat) :
    countPlaceholders t = some n ↔ ∃ ps, Plain ps ∧ text ps = t ∧ slots ps = n := by
  constructor
  · intro h
    obtain ⟨ps, hp, ht, hn⟩ := of_countFrom t 0 0 h
    exact ⟨ps, hp, by simpa using ht, by omega⟩
  · rintro ⟨ps, hp, rfl, rfl⟩
    have := countFrom_text ps hp [] 0
    simpa [countPlaceholders] using this

/-- A form can be read in one way only. -/
theorem C165_unique (ps qs : List Piece) (hp : Plain ps) (hq : Plain qs) (h : text ps = text qs) : ps = qs := by
  have h1 := pieces?_text ps hp
  rw [h, pieces?_text qs hq] at h1
  exact (Option.some.inj h1).symm

/-- A brace alone makes the form a compile error: `{` that is followed by neither brace, after any pieces. -/
theorem C165_lone_open (ps : List Piece) (hp : Plain ps) (t : Text) (h1 : t.head? ≠ some ob) (h2 : t.head? ≠ some cb) :
    countPlaceholders (text ps ++ ob :: t) = none := by
  cases hc : countPlaceholders (text ps ++ ob :: t) with
  | none => rfl
  | some n =>
    exfalso
    obtain ⟨qs, hq, ht, -⟩ := (C165_accepts _ n).mp hc
    induction ps generalizing qs n with
    | nil =>
      cases qs with
      | nil => simp [text] at ht
      | cons q qs =>
        cases q with
        | lit b =>
          have hb := hq (.lit b) (by simp)
          simp only [text, Piece.text, List.flatMap_cons, List.cons_append, List.nil_append, List.flatMap_nil,
            List.cons.injEq] at ht
          exact hb.1 ht.1
        | open' => simp [text, Piece.text] at ht; rw [← ht] at h1; simp at h1
        | close => simp [text, Piece.text, ob_ne_cb.symm] at ht
        | slot => simp [text, Piece.text] at ht; rw [← ht] at h2; simp at h2
    | cons p ps ih =>
      have hps : Plain ps := fun q hq' => hp q (List.mem_cons_of_mem _ hq')
      cases qs with
      | nil => cases p <;> simp [text, Piece.text] at ht
      | cons q qs =>
        have hqs : Plain qs := fun q' hq' => hq q' (List.mem_cons_of_mem _ hq')
        have key : p = q ∧ text qs = text ps ++ ob :: t := by
          cases p with
          | lit a =>
            have ha := hp (.lit a) (by simp)
            simp only [Piece.plain] at ha
            cases q with
            | lit b => simp [text, Piece.text] at ht; exact ⟨by rw [ht.1], by simpa [text] using ht.2⟩
            | open' => simp [text, Piece.text] at ht; exact absurd ht.1.symm ha.1
            | close => simp [text, Piece.text] at ht; exact absurd ht.1.symm ha.2
            | slot => simp [text, Piece.text] at ht; exact absurd ht.1.symm ha.1
          | open' =>
            cases q with
            | lit b => simp [text, Piece.text] at ht; exact absurd ht.1 (hq (.lit b) (by simp)).1
            | open' => simp [text, Piece.text] at ht; exact ⟨rfl, by simpa [text] using ht⟩
            | close => simp [text, Piece.text, ob_ne_cb.symm] at ht
            | slot => simp [text, Piece.text, ob_ne_cb.symm] at ht
          | close =>
            cases q with
            | lit b => simp [text, Piece.text] at ht; exact absurd ht.1 (hq (.lit b) (by simp)).2
            | open' => simp [text, Piece.text, ob_ne_cb] at ht
            | close => simp [text, Piece.text] at ht; exact ⟨rfl, by simpa [text] using ht⟩
            | slot => simp [text, Piece.text, ob_ne_cb] at ht
          | slot =>
            cases q with
            | lit b => simp [text, Piece.text] at ht; exact absurd ht.1 (hq (.lit b) (by simp)).1
            | open' => simp [text, Piece.text, ob_ne_cb] at ht
            | close => simp [text, Piece.text, ob_ne_cb.symm] at ht
            | slot => simp [text, Piece.text] at ht; exact ⟨rfl, by simpa [text] using ht⟩
        exact ih hps (slots qs) ((C165_accepts _ _).mpr ⟨qs, hqs, key.2, rfl⟩) qs hqs key.2

/-! ### C166: the scan when the error is shown -/

/-- Every form that was accepted is filled with the arguments in the places of its slots, in order; what the arguments contain
is not looked at. Slots for which there is no argument stay, arguments for which there is no slot are left out. -/
theorem C166_render (ps : List Piece) (hp : Plain ps) (hu : Utf8 (text ps)) (args : List Text) :
    render (text ps) args = some (fill ps args) := by
  have := renderFrom_text args ps hp [] 0 0 [] (by simpa using hu) (by simp) (by simpa using hu.head)
  simpa [render] using this

/-- No text makes it panic, whether it was accepted or not: it cuts between characters only. -/
theorem C166_no_panic (t : Text) (hu : Utf8 t) (args : List Text) : ∃ o, render t args = some o :=
  renderFrom_some hu args t.length 0 0 0 [] (by omega) (by omega) (by omega) hu.head

/-- With as many arguments as slots: the message is the pieces with the `i`-th slot replaced by the `i`-th argument, for forms
whose text is cut at the slots. -/
theorem C166_parts (pre : List Piece) (hpre : Plain pre) (parts : List (List Piece)) (hparts : ∀ qs ∈ parts, Plain qs)
    (h0 : slots pre = 0) (h1 : ∀ qs ∈ parts, slots qs = 0) (args : List Text) (hl : args.length = parts.length)
    (hu : Utf8 (text (pre ++ parts.flatMap (.slot :: ·)))) :
    render (text (pre ++ parts.flatMap (.slot :: ·))) args =
      some (fill pre [] ++ ((args.zip parts).flatMap fun x => x.1 ++ fill x.2 [])) := by
  have hfree : ∀ (qs rs : List Piece) (as : List Text), slots qs = 0 → fill (qs ++ rs) as = fill qs [] ++ fill rs as := by
    intro qs rs as
    induction qs with
    | nil => intro _; simp [fill]
    | cons q qs ih =>
      intro h
      cases q with
      | lit b => simp only [List.cons_append, fill]; rw [ih (by simpa [slots] using h)]
      | open' => simp only [List.cons_append, fill]; rw [ih (by simpa [slots] using h)]
      | close => simp only [List.cons_append, fill]; rw [ih (by simpa [slots] using h)]
      | slot => simp [slots] at h
  have hpl : Plain (pre ++ parts.flatMap (.slot :: ·)) := by
    intro q hq
    rcases List.mem_append.mp hq with hq | hq
    · exact hpre q hq
    · obtain ⟨qs, hqs, hq⟩ := List.mem_flatMap.mp hq
      rcases List.mem_cons.mp hq with rfl | hq
      · trivial
      · exact hparts qs hqs q hq
  rw [C166_render _ hpl hu, hfree _ _ _ h0]
  congr 2
  clear hpl hu hparts h0 hpre
  induction parts generalizing args with
  | nil => cases args <;> simp [fill]
  | cons qs parts ih =>
    cases args with
    | nil => simp at hl
    | cons a args =>
      simp only [List.flatMap_cons, List.cons_append, fill, List.zip_cons_cons]
      rw [hfree _ _ _ (h1 qs (by simp)), ih (fun x hx => h1 x (by simp [hx])) args (by simpa using hl)]
      simp

example : render (b! "a{}b{{c}}{}") [b! "{}", b! "z"] = some (b! "a{}b{c}z") :=
  have hp : pieces? (b! "a{}b{{c}}{}") = some [.lit 97, .slot, .lit 98, .open', .lit 99, .close, .slot] := by decide +kernel
  have hb : b! "a{}b{{c}}{}" = [97, 123, 125, 98, 123, 123, 99, 125, 125, 123, 125] := by decide +kernel
  have hu : Utf8 (b! "a{}b{{c}}{}") := by
    rw [hb]
    repeat (first | exact .nil | refine .one (by decide) ?_)
  have h := of_pieces? _ _ hp
  (by rw [← h.2, C166_render _ h.1 (by rw [h.2]; exact hu)]; decide +kernel)

/-! ### C167: the errors of the registry -/

/-- The full statement: an error whose form was accepted and that has as many arguments as slots is shown as its form, filled. -/
def C167_full : Prop := ∀ (frm : Nat → Text) (c : Nat) (ps : List Piece) (args : List Text), Plain ps → frm c = text ps →
  Utf8 (frm c) → args.length = slots ps → display frm (fromParts c args) = some (fill ps args)

/-- It holds for forms with a slot, and for forms without doubled braces. -/
theorem C167_display_partial (frm : Nat → Text) (c : Nat) (ps : List Piece) (args : List Text) (hp : Plain ps)
    (hf : frm c = text ps) (hu : Utf8 (frm c)) (hl : args.length = slots ps)
    (h : 0 < slots ps ∨ (Piece.open' ∉ ps ∧ Piece.close ∉ ps)) :
    display frm (fromParts c args) = some (fill ps args) := by
  cases args with
  | nil =>
    have hs : slots ps = 0 := by simpa using hl.symm
    have ⟨h1, h2⟩ := h.resolve_left (by omega)
    simp only [display, fromParts, List.isEmpty_nil, if_true, hf]
    congr 1
    clear hf hu hl h
    induction ps with
    | nil => rfl
    | cons p ps ih =>
      have hps : Plain ps := fun q hq => hp q (List.mem_cons_of_mem _ hq)
      cases p with
      | lit b =>
        have := ih hps (by simpa [slots] using hs) (by simp at h1; exact h1) (by simp at h2; exact h2)
        simp [text, Piece.text, fill] at this ⊢; exact this
      | open' => simp at h1
      | close => simp at h2
      | slot => simp [slots] at hs
  | cons a args =>
    simp only [display, fromParts, List.isEmpty_cons]
    show render (frm c) (a :: args) = _
    rw [hf] at hu ⊢
    exact C166_render ps hp hu _

/-- A form without a slot is not unescaped: its doubled braces are shown twice. -/
theorem C167_counterexample_escape : ¬ C167_full := by
  intro h
  have := h (fun _ => [ob, ob]) 0 [.open'] [] (by intro p hp; simp at hp; subst hp; trivial) rfl
    (.one (by decide) (.one (by decide) .nil)) rfl
  simp [display, fromParts, fill] at this

/-- The codes of the registry are different, and each fits two bytes. -/
theorem C167_codes : (registry.map (·.1)).Nodup ∧ ∀ x ∈ registry, x.1 < 65536 := by
  constructor
  · have : registry.map (·.1) = List.range 326 := by decide +kernel
    rw [this]; exact List.nodup_range
  · decide +kernel

/-- Whether a text is whole characters. -/
def utf8? : Text → Bool
  | [] => true
  | a :: t =>
    if a < 128 then utf8? t
    else if 192 ≤ a ∧ a < 224 then
      match t with
      | b :: t => (128 ≤ b && b < 192) && utf8? t
      | _ => false
    else if 224 ≤ a ∧ a < 240 then
      match t with
      | b :: c :: t => (128 ≤ b && b < 192) && (128 ≤ c && c < 192) && utf8? t
      | _ => false
    else false

theorem utf8?_sound : ∀ (n : Nat) (t : Text), t.length ≤ n → utf8? t = true → Utf8 t := by
  intro n
  induction n with
  | zero => intro t hl _; have : t = [] := by simpa using hl
            subst this; exact .nil
  | succ n ih =>
    intro t hl h
    match t with
    | [] => exact .nil
    | a :: t =>
      unfold utf8? at h
      split at h
      · exact .one (by assumption) (ih t (by simpa using hl) h)
      · split at h
        · rename_i h1 h2
          match t with
          | [] => simp at h
          | b :: t =>
            simp only [Bool.and_eq_true, decide_eq_true_eq] at h
            exact .two h2.1 h2.2 h.1.1 h.1.2 (ih t (by simp at hl; omega) h.2)
        · split at h
          · rename_i h1 h2 h3
            match t with
            | [] => simp at h
            | [_] => simp at h
            | b :: c :: t =>
              simp only [Bool.and_eq_true, decide_eq_true_eq] at h
              exact .three h3.1 h3.2 h.1.1.1 h.1.1.2 h.1.2.1 h.1.2.2 (ih t (by simp at hl; omega) h.2)
          · simp at h

theorem registry_ok : registry.all (fun x => match pieces? (x.2) with
    | none => false
    | some ps => utf8? (x.2) && !ps.contains .open' && !ps.contains .close) = true := by decide +kernel

theorem form_of {c : Nat} {s : Text} (h : (c, s) ∈ registry) : form c = s := by
  have key : ∀ (l : List (Nat × Text)), (l.map (·.1)).Nodup → (c, s) ∈ l →
      l.find? (fun x => x.1 == c) = some (c, s) := by
    intro l
    induction l with
    | nil => intro _ h; simp at h
    | cons x l ih =>
      intro hn hm
      simp only [List.map_cons, List.nodup_cons] at hn
      rcases List.mem_cons.mp hm with rfl | hm
      · simp
      · have : x.1 ≠ c := fun e => hn.1 (e ▸ List.mem_map_of_mem (f := (·.1)) hm)
        rw [List.find?_cons_of_neg (by simpa using this)]
        exact ih hn.2 hm
  simp [form, key registry C167_codes.1 h]

/-- Every error of the registry with as many arguments as its form has slots is shown as its form with the arguments in the places
of the slots, and every form of the registry was accepted. -/
theorem C167_registry (c : Nat) (s : Text) (h : (c, s) ∈ registry) : ∃ ps, Plain ps ∧ text ps = s ∧
    countPlaceholders (form c) = some (slots ps) ∧
    ∀ args : List Text, args.length = slots ps → display form (fromParts c args) = some (fill ps args) := by
  have := List.all_eq_true.mp registry_ok _ h
  cases hp : pieces? (s) with
  | none => simp [hp] at this
  | some ps =>
    simp only [hp, Bool.and_eq_true, Bool.not_eq_true', List.contains_eq_mem, decide_eq_false_iff_not] at this
    obtain ⟨h1, h2⟩ := of_pieces? _ _ hp
    have hu : Utf8 (s) := utf8?_sound _ _ (Nat.le_refl _) this.1.1
    have hf := form_of h
    refine ⟨ps, h1, h2, ?_, fun args hl => ?_⟩
    · rw [hf]; exact (C165_accepts _ _).mpr ⟨ps, h1, h2, rfl⟩
    · exact C167_display_partial form c ps args h1 (by rw [hf, h2]) (by rw [hf]; exact hu) hl (.inr ⟨this.1.2, this.2⟩)

/-! ### C168: errors that go through `std::io::Error` -/

/-- Turned into an error of the standard library and back, an error keeps its message, after `I/O error: `, whatever the message
contains, -/
theorem C168_message (e : Err) (m : Text) (h : display form e = some m) :
    ∃ f, viaIo e = some f ∧ display form f = some (b! "I/O error: " ++ m) := by
  refine ⟨fromParts ioCode [m], by simp [viaIo, h], ?_⟩
  have hm : (9, b! "I/O error: {}") ∈ registry := by decide +kernel
  obtain ⟨ps, h1, h2, h3, h4⟩ := C167_registry 9 _ hm
  have hp := pieces?_text ps h1
  rw [h2] at hp
  have e : pieces? (b! "I/O error: {}") = some ((b! "I/O error: ").map .lit ++ [.slot]) := by decide +kernel
  rw [e] at hp
  have := (Option.some.inj hp).symm
  subst this
  have := h4 [m] (show 1 = _ by decide +kernel)
  rw [show ioCode = 9 from rfl, this]
  have : ∀ (t : Text), fill (t.map .lit ++ [.slot]) [m] = t ++ m := by
    intro t
    induction t with
    | nil => simp [fill]
    | cons a t ih => simp [fill, ih]
  rw [this]

/-- but not its code: two errors that were different are the same afterwards. -/
theorem C168_code_lost (e f e' f' : Err) (he : viaIo e = some e') (hf : viaIo f = some f') :
    same e' f' = true ∧ e'.code = 9 := by
  simp only [viaIo, Option.map_eq_some_iff] at he hf
  obtain ⟨_, _, rfl⟩ := he
  obtain ⟨_, _, rfl⟩ := hf
  exact ⟨by simp [same, fromParts], rfl⟩

example : ∃ e' f', viaIo (fromParts 8 []) = some e' ∧ viaIo (fromParts 0 [b! "{}"]) = some f' ∧
    same (fromParts 8 []) (fromParts 0 [b! "{}"]) = false ∧ display form f' = some (b! "I/O error: {}") := by
  obtain ⟨ps, h1, h2, h3, h4⟩ := C167_registry 0 (b! "{}") (by decide +kernel)
  have hp := pieces?_text ps h1
  rw [h2, show pieces? (b! "{}") = some [.slot] by decide +kernel] at hp
  have := (Option.some.inj hp).symm
  subst this
  have hd := h4 [b! "{}"] rfl
  obtain ⟨f', hf', hm⟩ := C168_message _ _ hd
  refine ⟨_, f', rfl, hf', by decide, ?_⟩
  rw [hm]; decide +kernel

end Verif.Errors

/-
Exhaustive search of a finite set of states, run by the kernel. States are explored through numbers that encode them, which
the kernel compares fast; that an encoding is faithful is checked for each state met.
-/
namespace Verif.NetRwLock

variable {σ : Type} [DecidableEq σ]

/-- Evaluate `n` before passing it on. -/
def force {α : Type} (n : Nat) (f : Nat → α) : α :=
  match n with
  | 0 => f 0
  | m + 1 => f (m + 1)

theorem force_eq {α : Type} (n : Nat) (f : Nat → α) : force n f = f n := by cases n <;> rfl

/-- Is `c` in the list? -/
def seen (c : Nat) : List Nat → Bool
  | [] => false
  | x :: r => if Nat.beq x c then true else seen c r

theorem seen_mem {c : Nat} {l : List Nat} : seen c l = true → c ∈ l := by
  induction l with
  | nil => simp [seen]
  | cons x r ih =>
    unfold seen
    split
    · rename_i h; exact fun _ => List.mem_cons.2 (Or.inl (Nat.eq_of_beq_eq_true h).symm)
    · exact fun h => List.mem_cons_of_mem _ (ih h)

/-- Visit all states from the list: `true` if all of them are good and the search ended within the given number of steps. -/
def explore (enc : σ → Nat) (dec : Nat → σ) (succ : σ → List σ) (good : σ → Bool) : Nat → List Nat → List Nat → Bool
  | _, _, [] => true
  | 0, _, _ :: _ => false
  | n + 1, vis, c :: rest =>
    force c fun c =>
      if seen c vis then explore enc dec succ good n vis rest
      else good (dec c) && (succ (dec c)).all (fun y => decide (dec (enc y) = y)) &&
        explore enc dec succ good n (c :: vis) ((succ (dec c)).map enc ++ rest)

theorem explore_closed (enc : σ → Nat) (dec : Nat → σ) (succ : σ → List σ) (good : σ → Bool) (n : Nat) (vis fr : List Nat)
    (h : explore enc dec succ good n vis fr = true)
    (hv : ∀ c ∈ vis, good (dec c) = true ∧ ∀ y ∈ succ (dec c), dec (enc y) = y ∧ (enc y ∈ vis ∨ enc y ∈ fr)) :
    ∃ C : List Nat, (∀ c ∈ fr, c ∈ C) ∧
      ∀ c ∈ C, good (dec c) = true ∧ ∀ y ∈ succ (dec c), dec (enc y) = y ∧ enc y ∈ C := by
  suffices H : ∃ C : List Nat, (∀ c ∈ vis, c ∈ C) ∧ (∀ c ∈ fr, c ∈ C) ∧
      ∀ c ∈ C, good (dec c) = true ∧ ∀ y ∈ succ (dec c), dec (enc y) = y ∧ enc y ∈ C by
    obtain ⟨C, _, h1, h2⟩ := H; exact ⟨C, h1, h2⟩
  induction n generalizing vis fr with
  | zero =>
    cases fr with
    | nil => exact ⟨vis, fun _ h => h, (by simp), fun c hc => ⟨(hv c hc).1, fun y hy => ⟨((hv c hc).2 y hy).1,
        ((hv c hc).2 y hy).2.resolve_right (by simp)⟩⟩⟩
    | cons c r => simp [explore] at h
  | succ n ih =>
    cases fr with
    | nil => exact ⟨vis, fun _ h => h, (by simp), fun c hc => ⟨(hv c hc).1, fun y hy => ⟨((hv c hc).2 y hy).1,
        ((hv c hc).2 y hy).2.resolve_right (by simp)⟩⟩⟩
    | cons c r =>
      rw [explore, force_eq] at h
      by_cases hs : seen c vis = true
      · rw [if_pos hs] at h
        have hm := seen_mem hs
        obtain ⟨C, h1, h2, h3⟩ := ih vis r h (fun d hd => ⟨(hv d hd).1, fun y hy => ⟨((hv d hd).2 y hy).1, by
          rcases ((hv d hd).2 y hy).2 with h' | h'
          · exact Or.inl h'
          · rcases List.mem_cons.1 h' with h' | h'
            · exact Or.inl (h' ▸ hm)
            · exact Or.inr h'⟩⟩)
        exact ⟨C, h1, fun d hd => (List.mem_cons.1 hd).elim (fun e => e ▸ h1 _ hm) (h2 d), h3⟩
      · rw [if_neg hs] at h
        simp only [Bool.and_eq_true, List.all_eq_true, decide_eq_true_eq] at h
        obtain ⟨C, h1, h2, h3⟩ := ih (c :: vis) _ h.2 (fun d hd => by
          rcases List.mem_cons.1 hd with rfl | hd
          · exact ⟨h.1.1, fun y hy => ⟨h.1.2 y hy, Or.inr (List.mem_append_left _ (List.mem_map.2 ⟨y, hy, rfl⟩))⟩⟩
          · refine ⟨(hv d hd).1, fun y hy => ⟨((hv d hd).2 y hy).1, ?_⟩⟩
            rcases ((hv d hd).2 y hy).2 with h' | h'
            · exact Or.inl (List.mem_cons_of_mem _ h')
            · rcases List.mem_cons.1 h' with h' | h'
              · exact Or.inl (h' ▸ List.mem_cons_self ..)
              · exact Or.inr (List.mem_append_right _ h'))
        exact ⟨C, fun d hd => h1 d (List.mem_cons_of_mem _ hd),
          fun d hd => (List.mem_cons.1 hd).elim (fun e => e ▸ h1 _ (List.mem_cons_self ..))
            (fun hd => h2 d (List.mem_append_right _ hd)), h3⟩

/-- A set of good states, closed under `succ`, that contains `x`. -/
theorem explore_sound (enc : σ → Nat) (dec : Nat → σ) (succ : σ → List σ) (good : σ → Bool) (n : Nat) (x : σ)
    (h : explore enc dec succ good n [] [enc x] = true) (hx : dec (enc x) = x) :
    ∃ C : σ → Prop, C x ∧ ∀ z, C z → good z = true ∧ ∀ y ∈ succ z, C y := by
  obtain ⟨C, h1, h2⟩ := explore_closed enc dec succ good n [] [enc x] h (by simp)
  refine ⟨fun z => ∃ c ∈ C, dec c = z, ⟨enc x, h1 _ (by simp), hx⟩, ?_⟩
  rintro z ⟨c, hc, rfl⟩
  exact ⟨(h2 c hc).1, fun y hy => ⟨enc y, ((h2 c hc).2 y hy).2, ((h2 c hc).2 y hy).1⟩⟩

end Verif.NetRwLock

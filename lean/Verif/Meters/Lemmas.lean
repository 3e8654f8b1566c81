import Verif.Meters.Spec

namespace Verif.Meters

theorem run_append : ∀ (es fs : List Event) (s : Expiry), run s (es ++ fs) = run (run s es) fs
  | [], _, _ => rfl
  | e :: es, fs, s => run_append es fs (step s e)

theorem now_step (s : Expiry) (e : Event) : s.now ≤ (step s e).now := by
  cases e with
  | pass ns => exact Nat.le_add_right _ _
  | read => exact Nat.le_refl _
  | store k => simp only [step]; split <;> exact Nat.le_refl _

theorem now_run : ∀ (es : List Event) (s : Expiry), s.now ≤ (run s es).now
  | [], _ => Nat.le_refl _
  | e :: es, s => Nat.le_trans (now_step s e) (now_run es (step s e))

theorem last_step (s : Expiry) (e : Event) : s.last ≤ (step s e).last := by
  cases e with
  | pass ns => exact Nat.le_refl _
  | read => exact Nat.le_refl _
  | store k =>
    simp only [step]
    split
    · exact Nat.le_refl _
    · exact Nat.le_max_left _ _

theorem last_run : ∀ (es : List Event) (s : Expiry), s.last ≤ (run s es).last
  | [], _ => Nat.le_refl _
  | e :: es, s => Nat.le_trans (last_step s e) (last_run es (step s e))

/-- The atomic has the largest of what was stored. -/
structure Ok (s : Expiry) : Prop where
  held : ∀ t ∈ s.held, t ≤ s.now
  stored : ∀ t ∈ s.stored, t ≤ s.now
  upper : ∀ t ∈ s.stored, u64 t ≤ s.last
  mem : s.last = 0 ∨ ∃ t ∈ s.stored, s.last = u64 t

theorem ok_step (s : Expiry) (e : Event) (h : Ok s) : Ok (step s e) := by
  obtain ⟨h1, h2, h3, h4⟩ := h
  cases e with
  | pass ns =>
    exact ⟨fun t ht => Nat.le_trans (h1 t ht) (Nat.le_add_right _ _),
      fun t ht => Nat.le_trans (h2 t ht) (Nat.le_add_right _ _), h3, h4⟩
  | read =>
    refine ⟨?_, h2, h3, h4⟩
    intro t ht
    rcases List.mem_append.mp ht with ht | ht
    · exact h1 t ht
    · rw [List.mem_singleton.mp ht]; exact Nat.le_refl _
  | store k =>
    simp only [step]
    split
    · exact ⟨h1, h2, h3, h4⟩
    · rename_i t ht
      have hm : t ∈ s.held := List.mem_of_getElem? ht
      refine ⟨fun u hu => h1 u (List.mem_of_mem_eraseIdx hu), ?_, ?_, ?_⟩
      · intro u hu
        rcases List.mem_cons.mp hu with rfl | hu
        · exact h1 _ hm
        · exact h2 u hu
      · intro u hu
        rcases List.mem_cons.mp hu with rfl | hu
        · exact Nat.le_max_right _ _
        · exact Nat.le_trans (h3 u hu) (Nat.le_max_left _ _)
      · show max s.last (u64 t) = 0 ∨ ∃ v ∈ t :: s.stored, max s.last (u64 t) = u64 v
        by_cases hl : s.last ≤ u64 t
        · exact .inr ⟨t, List.mem_cons_self, Nat.max_eq_right hl⟩
        · rw [Nat.max_eq_left (by omega)]
          rcases h4 with h4 | ⟨v, hv, he⟩
          · exact .inl h4
          · exact .inr ⟨v, List.mem_cons_of_mem _ hv, he⟩

theorem ok_run : ∀ (es : List Event) (s : Expiry), Ok s → Ok (run s es)
  | [], _, h => h
  | e :: es, s, h => ok_run es (step s e) (ok_step s e h)

theorem ok_fresh : Ok fresh :=
  ⟨fun _ h => by simp [fresh] at h, fun _ h => by simp [fresh] at h,
    fun _ h => by simp [fresh] at h, .inl rfl⟩

theorem u64_of_lt {n : Nat} (h : n < 2 ^ 64) : u64 n = n := Nat.mod_eq_of_lt h

theorem total_addAll : ∀ (l : List (Int × Int)) (s : Stats),
    ((addAll s l).total - (s.total + (l.map Prod.snd).sum)).emod (2 ^ 64) = 0
  | [], s => by
    simp only [addAll, List.map_nil, List.sum_nil, Int.add_zero, Int.sub_self]
    rfl
  | (t, b) :: l, s => by
    have ih := total_addAll l (s.add (Stats.new t b))
    have hb : (s.add (Stats.new t b)).total = (s.total + b).bmod (2 ^ 64) := rfl
    rw [hb] at ih
    have h1 := Int.bmod_emod (x := s.total + b) (m := 2 ^ 64)
    simp only [addAll, List.map_cons, List.sum_cons]
    generalize (addAll (s.add (Stats.new t b)) l).total = T at ih ⊢
    generalize (List.map Prod.snd l).sum = S at ih ⊢
    generalize (s.total + b).bmod (2 ^ 64) = B at ih h1
    have ih' : (T - (B + S)) % 2 ^ 64 = 0 := ih
    show (T - (s.total + (b + S))) % 2 ^ 64 = 0
    have h1' : B % 2 ^ 64 = (s.total + b) % 2 ^ 64 := h1
    omega

end Verif.Meters

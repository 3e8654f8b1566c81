import Verif.SecPacket.Spec

namespace Verif.SecPacket

structure Refines (p : PBuf) (parts : List Bytes) : Prop where
  layout : p.layout = parts.map List.length
  buffer : p.buffer = parts.flatten

theorem flatten_len (l : List Bytes) : l.flatten.length = (l.map List.length).sum := List.length_flatten

theorem split_at {α : Type} (l : List α) (i : Nat) (h : i < l.length) :
    ∃ L x R, l = L ++ x :: R ∧ L.length = i := by
  refine ⟨l.take i, l[i], l.drop (i + 1), ?_, by simp; omega⟩
  rw [← List.drop_eq_getElem_cons h, List.take_append_drop]

theorem set_mid {α : Type} (L R : List α) (x y : α) : (L ++ x :: R).set L.length y = L ++ y :: R := by
  simp

theorem range_eq {p : PBuf} {L R : List Bytes} {P : Bytes} (h : Refines p (L ++ P :: R)) (checks : Bool)
    (hs : L.flatten.length < 2 ^ 32) :
    range checks p L.length = .ok (L.flatten.length, L.flatten.length + P.length) := by
  unfold range
  have hl : p.layout.length = L.length + (R.length + 1) := by rw [h.layout]; simp
  rw [if_pos (by omega)]
  have ht : p.layout.take L.length = L.map List.length := by
    rw [h.layout, List.map_append]
    exact List.take_left' (by simp)
  have hg : p.layout.getD L.length 0 = P.length := by
    rw [h.layout]; simp [List.getD_eq_getElem?_getD]
  rw [ht, hg]
  unfold sumU32
  rw [← flatten_len, if_pos hs]
  simp only [Res.bind]
  by_cases hlast : L.length + 1 = p.layout.length
  · rw [if_pos hlast, h.buffer]
    have : R = [] := List.eq_nil_of_length_eq_zero (by omega)
    subst this; simp
  · rw [if_neg hlast]

theorem read_eq {p : PBuf} {L R : List Bytes} {P : Bytes} (h : Refines p (L ++ P :: R)) (checks : Bool)
    (hs : L.flatten.length < 2 ^ 32) : readWindow checks p L.length = .ok P := by
  unfold readWindow
  rw [range_eq h checks hs]
  simp only [Res.bind]
  have hb : p.buffer = L.flatten ++ (P ++ R.flatten) := by rw [h.buffer]; simp
  rw [if_pos ⟨by omega, by rw [hb]; simp⟩, hb, List.drop_left' rfl, Nat.add_sub_cancel_left, List.take_left' rfl]

theorem write_eq {p : PBuf} {L R : List Bytes} {P : Bytes} (h : Refines p (L ++ P :: R)) (checks : Bool)
    (hs : L.flatten.length < 2 ^ 32) (fx : Writer) :
    writeWindow checks p L.length fx =
      (fx P).bind fun out => .ok { p with buffer := L.flatten ++ out ++ R.flatten } := by
  unfold writeWindow
  rw [range_eq h checks hs]
  simp only [Res.bind]
  have hb : p.buffer = L.flatten ++ (P ++ R.flatten) := by rw [h.buffer]; simp
  have hb' : p.buffer = (L.flatten ++ P) ++ R.flatten := by rw [h.buffer]; simp
  rw [if_pos ⟨by omega, by rw [hb]; simp⟩]
  have h1 : (p.buffer.drop L.flatten.length).take (L.flatten.length + P.length - L.flatten.length) = P := by
    rw [hb, List.drop_left' rfl, Nat.add_sub_cancel_left, List.take_left' rfl]
  have h2 : p.buffer.take L.flatten.length = L.flatten := by rw [hb, List.take_left' rfl]
  have h3 : p.buffer.drop (L.flatten.length + P.length) = R.flatten := by
    rw [hb', List.drop_left' (by simp)]
  rw [h1, h2, h3]

theorem write_refines {p : PBuf} {L R : List Bytes} {P out : Bytes} (h : Refines p (L ++ P :: R))
    (hlen : out.length = P.length) : Refines { p with buffer := L.flatten ++ out ++ R.flatten } (L ++ out :: R) := by
  refine ⟨?_, by simp⟩
  rw [h.layout]; simp [hlen]

theorem reservable_iff {p : PBuf} {parts : List Bytes} (h : Refines p parts) (i : Nat) :
    reservable p i = true ↔ i < parts.length ∧ (∀ x ∈ parts.take i, x ≠ []) ∧ (∀ x ∈ parts.drop i, x = []) := by
  unfold reservable
  rw [h.layout, ← List.map_take, ← List.map_drop]
  simp only [Bool.and_eq_true, decide_eq_true_eq, List.length_map, List.all_map, List.all_eq_true, Function.comp,
    List.length_eq_zero_iff, ne_eq]
  constructor
  · rintro ⟨⟨⟨h1, -⟩, h3⟩, h4⟩; exact ⟨h1, h3, h4⟩
  · rintro ⟨h1, h3, h4⟩
    refine ⟨⟨⟨h1, ?_⟩, h3⟩, h4⟩
    have hm : parts[i] ∈ parts.drop i := by
      rw [List.drop_eq_getElem_cons h1]; exact List.mem_cons_self
    rw [List.getD_eq_getElem?_getD, List.getElem?_map, List.getElem?_eq_getElem h1, h4 _ hm]
    rfl

theorem reserve_refines {p : PBuf} {parts : List Bytes} (h : Refines p parts) (i l : Nat)
    (hr : i < parts.length ∧ (∀ x ∈ parts.take i, x ≠ []) ∧ (∀ x ∈ parts.drop i, x = [])) :
    ∃ q, reserve p i l = .ok q ∧ Refines q (parts.set i (List.replicate l 0)) := by
  refine ⟨_, by unfold reserve; rw [if_pos ((reservable_iff h i).2 hr)], ?_, ?_⟩
  · simp only [h.layout]
    rw [List.map_set, List.length_replicate]
  · simp only [h.buffer]
    obtain ⟨h1, -, h3⟩ := hr
    obtain ⟨L, P, R, rfl, rfl⟩ := split_at parts i h1
    rw [List.drop_left' rfl] at h3
    have hP : P = [] := h3 P List.mem_cons_self
    have hR : R.flatten = [] := List.flatten_eq_nil_iff.2 (fun x hx => h3 x (List.mem_cons_of_mem _ hx))
    rw [set_mid]; simp [hP, hR]

theorem new_refines {n : Nat} (h : n ≠ 0) :
    ∃ p, newBuf n = .ok p ∧ Refines p (List.replicate n []) := by
  refine ⟨_, by unfold newBuf; rw [if_pos h], ?_, ?_⟩
  · simp
  · symm
    exact List.flatten_eq_nil_iff.2 (fun x hx => (List.mem_replicate.1 hx).2)

/-- With overflow checks a window is only handed out if the offsets fit. -/
theorem range_checked {p : PBuf} {L R : List Bytes} {P : Bytes} (h : Refines p (L ++ P :: R))
    (hs : ¬ L.flatten.length < 2 ^ 32) : range true p L.length = .panic := by
  unfold range
  have hl : p.layout.length = L.length + (R.length + 1) := by rw [h.layout]; simp
  rw [if_pos (by omega)]
  have ht : p.layout.take L.length = L.map List.length := by
    rw [h.layout, List.map_append]
    exact List.take_left' (by simp)
  rw [ht]
  unfold sumU32
  rw [← flatten_len, if_neg hs]
  rfl

theorem range_out {p : PBuf} {parts : List Bytes} (h : Refines p parts) (checks : Bool) {i : Nat}
    (hi : ¬ i < parts.length) : range checks p i = .err := by
  unfold range
  rw [if_neg (by rw [h.layout]; simpa using hi)]

/-- Sizes never shrink in an ideal run. -/
theorem ideal_length (parts : List Bytes) (ops : List BOp) : (ideal parts ops).length = parts.length := by
  induction ops generalizing parts with
  | nil => rfl
  | cons op ops ih =>
    cases op with
    | reserve i l => simp only [ideal]; split <;> simp [ih]
    | write i d => simp only [ideal]; split <;> simp [ih]

/-- A run that does not panic follows the ideal one. -/
theorem run_refines (checks : Bool) (ops : List BOp) (p : PBuf) (parts : List Bytes) (h : Refines p parts) (q : PBuf)
    (hrun : runBuf checks p ops = .ok q) (hsize : checks = true ∨ q.buffer.length < 2 ^ 32) :
    Refines q (ideal parts ops) ∧ p.buffer.length ≤ q.buffer.length := by
  induction ops generalizing p parts with
  | nil => cases hrun; exact ⟨h, Nat.le_refl _⟩
  | cons op ops ih =>
    cases op with
    | reserve i l =>
      simp only [runBuf] at hrun
      simp only [ideal]
      by_cases hr : i < parts.length ∧ (∀ x ∈ parts.take i, x ≠ []) ∧ (∀ x ∈ parts.drop i, x = [])
      · obtain ⟨p', h1, h2⟩ := reserve_refines h i l hr
        rw [h1] at hrun
        rw [if_pos hr]
        obtain ⟨h3, h4⟩ := ih p' _ h2 hrun
        refine ⟨h3, Nat.le_trans ?_ h4⟩
        unfold reserve at h1
        split at h1
        · cases h1; simp
        · cases h1
      · have h1 : reserve p i l = .err := by
          unfold reserve
          rw [if_neg (fun hc => hr ((reservable_iff h i).1 hc))]
        rw [h1] at hrun
        rw [if_neg hr]
        exact ih p _ h hrun
    | write i d =>
      simp only [runBuf] at hrun
      simp only [ideal]
      by_cases hi : i < parts.length
      · rw [if_pos hi]
        obtain ⟨L, P, R, rfl, rfl⟩ := split_at parts i hi
        have key : L.flatten.length < 2 ^ 32 → Refines q (ideal ((L ++ P :: R).set L.length d) ops) ∧
            p.buffer.length ≤ q.buffer.length := by
          intro hs
          rw [write_eq h checks hs] at hrun
          unfold copyFrom at hrun
          by_cases hd : P.length = d.length
          · rw [if_pos hd] at hrun
            simp only [Res.bind] at hrun
            have := write_refines (out := d) h hd.symm
            rw [set_mid]
            obtain ⟨h3, h4⟩ := ih _ _ this hrun
            refine ⟨h3, Nat.le_trans (Nat.le_of_eq ?_) h4⟩
            rw [h.buffer]; simp [hd]
          · rw [if_neg hd] at hrun
            simp only [Res.bind] at hrun
            cases hrun
        by_cases hs : L.flatten.length < 2 ^ 32
        · exact key hs
        · rcases hsize with hc | hsize
          · subst hc
            unfold writeWindow at hrun
            rw [range_checked h hs] at hrun
            simp only [Res.bind] at hrun
            cases hrun
          · exfalso
            have mono : ∀ (ops : List BOp) (p : PBuf) (q : PBuf), runBuf checks p ops = .ok q →
                p.buffer.length ≤ q.buffer.length := by
              intro ops
              induction ops with
              | nil => intro p q e; cases e; exact Nat.le_refl _
              | cons op ops ih2 =>
                intro p q e
                cases op with
                | reserve i l =>
                  simp only [runBuf] at e
                  split at e
                  · rename_i p' hp'
                    refine Nat.le_trans ?_ (ih2 _ _ e)
                    unfold reserve at hp'
                    split at hp'
                    · cases hp'; simp
                    · cases hp'
                  · exact ih2 _ _ e
                  · cases e
                | write i d =>
                  simp only [runBuf] at e
                  split at e
                  · rename_i p' hp'
                    refine Nat.le_trans ?_ (ih2 _ _ e)
                    unfold writeWindow at hp'
                    cases hrg : range checks p i with
                    | err => rw [hrg] at hp'; cases hp'
                    | panic => rw [hrg] at hp'; cases hp'
                    | ok r =>
                      rw [hrg] at hp'
                      simp only [Res.bind] at hp'
                      split at hp'
                      · rename_i hb
                        unfold copyFrom at hp'
                        split at hp'
                        · rename_i out ho
                          cases hp'
                          split at ho
                          · rename_i hlen
                            cases ho
                            simp only [List.length_append, List.length_take, List.length_drop] at hlen ⊢
                            omega
                          · cases ho
                        · cases hp'
                        · cases hp'
                      · cases hp'
                  · exact ih2 _ _ e
                  · cases e
            have h1 := mono (.write L.length d :: ops) p q (by simpa only [runBuf] using hrun)
            rw [h.buffer] at h1
            simp at h1
            simp at hs
            omega
      · rw [if_neg hi]
        have h1 : writeWindow checks p i (copyFrom d) = .err := by
          unfold writeWindow; rw [range_out h checks hi]; rfl
        rw [h1] at hrun
        exact ih p _ h hrun

end Verif.SecPacket

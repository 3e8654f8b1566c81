import Verif.HolePunch.Recover
/-!
The winner's message is under way, and there is at most one notice of failure.
-/
namespace Verif.HolePunch

variable {R : Nat → Nat → Prop} {w : Net} {n m : Nat}

structure Mail (x y : Node) (value : Option (Nat × Nat)) : Prop where
  won : ∀ l r : Nat, value = some (l, r) → x.final = some (r, l) → x.commanded = none →
    y.done = true ∨ y.commanded = some (l, r) ∨ .winner l r ∈ y.inbox
  sent : ∀ l r : Nat, x.res = .sent r l → y.done = true ∨ y.commanded = some (l, r) ∨ .winner l r ∈ y.inbox
  fails : x.inbox.count .allFailed ≤ 1
  none : y.failure = false → x.inbox.count .allFailed = 0

def Mails (w : Net) : Prop := ∀ s, Mail (w.get s) (w.get (!s)) w.value

theorem Mails.of {s : Bool} (h1 : Mail (w.get s) (w.get (!s)) w.value) (h2 : Mail (w.get (!s)) (w.get s) w.value) : Mails w := by
  intro t
  by_cases e : t = s
  · subst e
    exact h1
  · have : t = !s := by
      cases t <;> cases s <;> simp_all
    subst this
    rw [Bool.not_not]
    exact h2

macro "mails" s:ident : tactic => `(tactic| (
  refine Mails.of (s := $s:ident) ?_ ?_ <;> (try simp [Node.setP]) <;> constructor <;> (try simp) <;> grind [Node.setP, RSt.Holds]))

theorem Mails.step (hi : Inv R w) (h : Mails w) (ev : Ev) : Mails (w.step ev) := by
  have h' : ∀ s, Mail (w.get (!s)) (w.get s) w.value := by
    intro s
    have := h (!s)
    rwa [Bool.not_not] at this
  cases ev with
  | syn s i j | ack s i j | fail s i | kill s i | next s i | check s | lockFail s | endRes s | send s =>
    obtain ⟨a1, a2, a3, a4⟩ := h s
    obtain ⟨b1, b2, b3, b4⟩ := h' s
    simp only [Net.step]
    repeat' split
    all_goals first
      | exact h
      | mails s
  | lock s =>
    obtain ⟨a1, a2, a3, a4⟩ := h s
    obtain ⟨b1, b2, b3, b4⟩ := h' s
    have c1 := (hi.both s).2.val
    simp only [Net.step]
    repeat' split
    all_goals first
      | exact h
      | mails s
  | win s =>
    obtain ⟨a1, a2, a3, a4⟩ := h s
    obtain ⟨b1, b2, b3, b4⟩ := h' s
    have c1 := (hi.both s).2.f2
    have c2 := (hi.half s).val
    simp only [Net.step]
    split
    · split
      · unfold Node.submit
        split <;> mails s
      · mails s
    · exact h
  | read s =>
    obtain ⟨a1, a2, a3, a4⟩ := h s
    obtain ⟨b1, b2, b3, b4⟩ := h' s
    simp only [Net.step]
    split
    · exact h
    · rename_i hc
      have hd : (w.get s).done = false := by
        cases hx : (w.get s).done with
        | false => rfl
        | true => exact absurd (.inl hx) hc
      split
      · exact h
      · rename_i msg rest hin
        rw [hin] at a3 a4
        have c1 := fun l r l' r' => hi.same (l := l) (r := r) (l' := l') (r' := r') hd
        unfold Cmd at c1
        split
        · mails s
        · split <;> mails s
        · mails s
  | tick s =>
    obtain ⟨a1, a2, a3, a4⟩ := h s
    obtain ⟨b1, b2, b3, b4⟩ := h' s
    simp only [Net.step]
    unfold Node.submit
    repeat' split
    all_goals first
      | exact h
      | mails s
  | rebuild s =>
    obtain ⟨a1, a2, a3, a4⟩ := h s
    obtain ⟨b1, b2, b3, b4⟩ := h' s
    have c1 := (hi.half s).rebuilt
    have c2 := (hi.half s).killed
    simp only [Net.step]
    unfold Node.submit
    split
    · exact h
    · split
      · exact h
      · rename_i sock rest hr
        have c3 := c2 _ (c1 sock.1 sock.2 (by rw [hr]; exact List.mem_cons_self ..))
        split <;> mails s
      · mails s
  | bothFailed s =>
    obtain ⟨a1, a2, a3, a4⟩ := h s
    obtain ⟨b1, b2, b3, b4⟩ := h' s
    simp only [Net.step]
    repeat' split
    all_goals first
      | exact h
      | mails s
  | finish s =>
    obtain ⟨a1, a2, a3, a4⟩ := h s
    obtain ⟨b1, b2, b3, b4⟩ := h' s
    simp only [Net.step]
    repeat' split
    all_goals first
      | exact h
      | mails s

theorem ReachR.mails (h : ReachR R n m w) : Mails w := by
  induction h with
  | init =>
    intro s
    cases s <;> constructor <;> simp [Net.init, Net.get]
  | step ev hr _ ih => exact Mails.step hr.inv ih ev

/-- The winner's message can be read. -/
theorem Mails.learn {s : Bool} {l r : Nat} (k : Nat) : ∀ {w : Net}, ReachR R n m w → (w.get s).inbox.length = k →
    (w.get s).done = false → (w.get s).reader = true → (w.get (!s)).commanded = none → .winner l r ∈ (w.get s).inbox →
    ((w.get s).failure = false ∨ (w.get s).inbox.count .allFailed = 0) →
    ∃ evs : List Ev, (∀ ev ∈ evs, ev.Quiet) ∧ IsTold s l r (w.steps evs) := by
  induction k with
  | zero =>
    intro w _ hk _ _ _ hmem
    rw [List.length_eq_zero_iff.mp hk] at hmem
    cases hmem
  | succ k ih =>
    intro w hr hk hd hrd hwc hmem hfl
    have hi := hr.inv
    have hr' := hr.step (.read s) trivial
    have more : (∃ evs : List Ev, (∀ ev ∈ evs, ev.Quiet) ∧ IsTold s l r ((w.step (.read s)).steps evs)) →
        ∃ evs : List Ev, (∀ ev ∈ evs, ev.Quiet) ∧ IsTold s l r (w.steps evs) := by
      rintro ⟨evs, h1, h2⟩
      refine ⟨.read s :: evs, ?_, h2⟩
      intro e he
      rcases List.mem_cons.mp he with rfl | he
      · trivial
      · exact h1 e he
    cases hq : (w.get s).inbox with
    | nil => rw [hq] at hk; cases hk
    | cons msg rest =>
      cases msg with
      | winner l' r' =>
        obtain ⟨rfl, rfl⟩ := hi.same (l' := l') (r' := r') hd (.inr hmem) (.inr (by rw [hq]; exact List.mem_cons_self ..))
        refine more ⟨[], by simp, ?_⟩
        show IsTold s l r (w.step (.read s))
        simp only [Net.step]
        rw [if_neg (by rw [hd, hrd]; simp), hq]
        constructor <;> simp [hd]
      | canEnd =>
        have := (hi.half s).canEnd (by rw [hq]; exact List.mem_cons_self ..)
        exact absurd hwc this.2
      | allFailed =>
        rw [hq] at hfl hk hmem
        have hf : (w.get s).failure = false := by
          rcases hfl with e | e
          · exact e
          · simp at e
        have hc := (hr.mails s).fails
        rw [hq] at hc
        have hc : rest.count .allFailed = 0 := by
          simpa using hc
        have he : (w.step (.read s)).get s = { w.get s with inbox := rest, failure := true } ∧
            ((w.step (.read s)).get (!s)).commanded = (w.get (!s)).commanded := by
          simp only [Net.step]
          rw [if_neg (by rw [hd, hrd]; simp), hq]
          dsimp only
          rw [if_neg (by rw [hf]; simp)]
          simp
        refine more (ih hr' ?_ ?_ ?_ ?_ ?_ ?_)
        · rw [he.1]
          simpa using hk
        · rw [he.1]
          exact hd
        · rw [he.1]
          exact hrd
        · rw [he.2]
          exact hwc
        · rw [he.1]
          simpa using hmem
        · rw [he.1]
          exact .inr hc

/-- When the loser is through, the winner gets its socket, too. -/
theorem Fin.both (hr : ReachR R n m w) {s : Bool} {l r : Nat} (h : Fin s l r w) (hd : (w.get (!s)).done = true) :
    ((w.steps [.finish s, .finish (!s)]).get s).result = some (l, r) ∧
    ((w.steps [.finish s, .finish (!s)]).get (!s)).result = some (r, l) := by
  have hw : w.value = some (l, r) ∧ (w.get (!s)).final = some (r, l) ∧ (w.get (!s)).commanded = none := by
    rcases (hr.inv.half s).cmds l r (.inl h.cmd) with e | e | e
    · exact e
    · rw [(hr.inv.both s).2.done hd] at e
      cases e
    · rw [hd] at e
      cases e.2.2.2.2.1
  have h1 : w.step (.finish s) = (w.set s { w.get s with over := true, result := (w.get s).final }).post (!s) .canEnd := by
    simp only [Net.step]
    rw [if_neg (by rw [h.done, h.over]; simp), h.cmd]
  show (((w.step (.finish s)).step (.finish (!s))).get s).result = _ ∧ (((w.step (.finish s)).step (.finish (!s))).get (!s)).result = _
  have hs : ((w.step (.finish s)).get s) = { w.get s with over := true, result := (w.get s).final } := by
    rw [h1]
    simp
  have ht : (w.step (.finish s)).get (!s) = { w.get (!s) with inbox := (w.get (!s)).inbox ++ [.canEnd] } := by
    rw [h1]
    simp
  generalize w.step (.finish s) = w1 at *
  have hne : (w.get (!s)).inbox ++ [Sig.canEnd] ≠ [] := by simp
  simp only [Net.step]
  rw [ht]
  by_cases ho : (w.get (!s)).over = true
  · rw [if_pos (.inr ho), hs, ht]
    refine ⟨h.final, ?_⟩
    rw [← hw.2.1]
    exact (hr.alive (!s)).ret ho
  · rw [if_neg (by simp [hd, ho])]
    simp only [hw.2.2]
    split
    · rename_i e
      exact absurd e hne
    · rw [Net.get_set'', hs, Net.get_set]
      exact ⟨h.final, hw.2.1⟩

end Verif.HolePunch

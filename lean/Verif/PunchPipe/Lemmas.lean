import Verif.PunchPipe.Spec
/-
What a pipe gets, and which connection a registered pipe belongs to.
-/
namespace Verif.PunchPipe

theorem run_append (s : Node) (as bs : List Act) : run s (as ++ bs) = run (run s as) bs := by
  induction as generalizing s with
  | nil => rfl
  | cons a as ih => exact ih _

@[simp] theorem put_same (f : Nat → α) (k : Nat) (x : α) : put f k x k = x := by simp [put]

theorem put_other (f : Nat → α) {j k : Nat} (h : j ≠ k) (x : α) : put f k x j = f j := by simp [put, h]

theorem arrivals_snoc (k c : Nat) (as : List Act) (a : Act) :
    arrivals k c (as ++ [a]) = arrivals k c as ++ arrivals k c [a] := by simp [arrivals, List.filterMap_append]

theorem arrivals_quiet (k c : Nat) (as : List Act) (a : Act) (h : ∀ p, a ≠ .packet p) :
    arrivals k c (as ++ [a]) = arrivals k c as := by
  rw [arrivals_snoc]
  cases a <;> simp_all [arrivals]

theorem send_get (l : List Pipe) (n : Nat) (xs : List Nat) (m : Nat) :
    (send l n xs)[m]? = (l[m]?).map fun p => if m = n ∧ p.live = true then { p with got := p.got ++ xs } else p := by
  unfold send
  split
  · rename_i p hp
    split
    · rename_i hl
      rw [List.getElem?_set]
      by_cases hm : n = m
      · subst hm
        obtain ⟨hlt, rfl⟩ := List.getElem?_eq_some_iff.mp hp
        simp [hlt, hl]
      · simp only [hm, if_false]
        cases l[m]? with
        | none => rfl
        | some q => simp [Ne.symm hm]
    · rename_i hl
      cases hq : l[m]? with
      | none => rfl
      | some q =>
        by_cases hm : m = n
        · subst hm; rw [hp] at hq; cases hq; simp [hl]
        · simp [hm]
  · rename_i hp
    cases hq : l[m]? with
    | none => rfl
    | some q =>
      by_cases hm : m = n
      · subst hm; rw [hp] at hq; cases hq
      · simp [hm]

theorem send_length (l : List Pipe) (n : Nat) (xs : List Nat) : (send l n xs).length = l.length := by
  unfold send
  split
  · split <;> simp
  · rfl

structure Inv (s : Node) (as : List Act) : Prop where
  /-- a registered pipe is there and belongs to the connection whose ratchet is used -/
  owned : ∀ (k n : Nat), s.pipes k = some n → ∃ p, s.all[n]? = some p ∧ p.key = k ∧
    (k ≠ 0 → (∀ v, s.vconn k = some v → v.id = p.conn) ∧ ∀ r, s.stale k = some r → r.1 = p.conn) ∧
    (k = 0 → s.c2s = some p.conn)
  have_pipe : ∀ k, k ≠ 0 → s.pipes k = none → s.vconn k = none ∧ s.stale k = none
  nopend : ∀ k, k ≠ 0 → s.pending k = []
  nokeys : s.c2s = none → s.pending 0 = []
  pend : ∀ c, s.c2s = some c → (s.pending 0).Sublist (arrivals 0 c as)
  zero : s.vconn 0 = none ∧ s.stale 0 = none
  sub : ∀ (n : Nat) (p : Pipe), s.all[n]? = some p → p.got.Sublist (arrivals p.key p.conn as)

theorem inv_start : Inv start [] :=
  ⟨by simp [start], by simp [start], by simp [start], by simp [start], by simp [start], by simp [start], by simp [start]⟩

theorem sub_more {l : List Nat} {k c : Nat} {as : List Act} (h : l.Sublist (arrivals k c as)) (a : Act) :
    l.Sublist (arrivals k c (as ++ [a])) := by
  rw [arrivals_snoc]; exact h.trans (List.sublist_append_left _ _)

theorem inv_open {s : Node} {as : List Act} (h : Inv s as) (k c : Nat) (a : Act) (hp : s.pending k = [] ∨ k = 0)
    (hk : k ≠ 0 → (∀ v, s.vconn k = some v → v.id = c) ∧ ∀ r, s.stale k = some r → r.1 = c)
    (h0 : k = 0 → s.c2s = some c) : Inv (openPipe s k c) (as ++ [a]) where
  owned j n hj := by
    simp only [openPipe] at hj ⊢
    by_cases hjk : j = k
    · subst hjk
      simp only [put_same] at hj; cases hj
      exact ⟨_, by rw [List.getElem?_append_right (Nat.le_refl _)]; simp; rfl, rfl, hk, h0⟩
    · simp only [put_other _ hjk] at hj
      obtain ⟨p, h1, h2⟩ := h.owned j n hj
      exact ⟨p, by rw [List.getElem?_append_left (List.getElem?_eq_some_iff.mp h1).1]; exact h1, h2⟩
  have_pipe j hj hn := by
    simp only [openPipe] at hn ⊢
    by_cases hjk : j = k
    · subst hjk; simp only [put_same] at hn; cases hn
    · simp only [put_other _ hjk] at hn; exact h.have_pipe j hj hn
  nopend j hj := by
    simp only [openPipe]
    by_cases hjk : j = k
    · subst hjk; simp only [put_same]
    · simp only [put_other _ hjk]; exact h.nopend j hj
  nokeys hc := by
    simp only [openPipe] at hc ⊢
    by_cases hjk : 0 = k
    · subst hjk; simp only [put_same]
    · simp only [put_other _ hjk]; exact h.nokeys hc
  pend d hd := by
    simp only [openPipe] at hd ⊢
    by_cases hjk : 0 = k
    · subst hjk; simp only [put_same]; exact List.nil_sublist _
    · simp only [put_other _ hjk]; exact sub_more (h.pend d hd) a
  zero := h.zero
  sub n p hn := by
    simp only [openPipe] at hn
    by_cases hlt : n < s.all.length
    · rw [List.getElem?_append_left hlt] at hn; exact sub_more (h.sub n p hn) a
    · rw [List.getElem?_append_right (by omega)] at hn
      cases hm : n - s.all.length with
      | zero =>
        rw [hm] at hn
        simp only [List.getElem?_cons_zero, Option.some.injEq] at hn
        subst hn
        rcases hp with hp | hp
        · simp [hp]
        · subst hp; exact sub_more (h.pend c (h0 rfl)) a
      | succ m => rw [hm] at hn; simp at hn

/-- A readable packet that finds a pipe belongs to the connection of the pipe. -/
theorem readable_pipe {s : Node} {as : List Act} (h : Inv s as) {p : Pkt} (hr : readable s p = true) {n : Nat}
    (hn : s.pipes (respCid p) = some n) :
    ∃ q, s.all[n]? = some q ∧ q.key = respCid p ∧ arrivals q.key q.conn [.packet p] = [p.body] := by
  obtain ⟨q, h1, h2, h3, h4⟩ := h.owned _ _ hn
  refine ⟨q, h1, h2, ?_⟩
  unfold readable at hr
  split at hr
  · rename_i hd
    have hrc : respCid p = p.src := by simp [respCid, hd]
    by_cases hs : p.src = 0
    · rw [hs, h.zero.1, h.zero.2] at hr; cases hr
    · rw [hrc] at h2 h3
      obtain ⟨a, b⟩ := h3 hs
      split at hr
      · rename_i v hv
        have := a v hv
        simp only [Bool.and_eq_true, beq_iff_eq] at hr
        simp [arrivals, h2, hs, hd, ← this, hr.2]
      · split at hr
        · rename_i r hv
          have := b r hv
          simp only [Bool.and_eq_true, beq_iff_eq] at hr
          simp [arrivals, h2, hs, hd, ← this, hr.2]
        · cases hr
  · rename_i hd
    have hrc : respCid p = 0 := by simp [respCid, hd]
    have h5 := h4 hrc
    rw [h5] at hr
    simp only [beq_iff_eq, Option.some.injEq] at hr
    rw [hrc] at h2
    have hd' : p.dst = 0 := by simpa using hd
    simp [arrivals, h2, hd', hr]

theorem inv_receive {s : Node} {as : List Act} (h : Inv s as) (p : Pkt) : Inv (receive s p) (as ++ [.packet p]) := by
  have weak : Inv s (as ++ [.packet p]) :=
    ⟨h.owned, h.have_pipe, h.nopend, h.nokeys, fun c hc => sub_more (h.pend c hc) _, h.zero, fun n q hq => sub_more (h.sub n q hq) _⟩
  unfold receive
  split
  · rename_i hr
    split
    · rename_i n hn
      obtain ⟨q, h1, h2, h3⟩ := readable_pipe h hr hn
      refine ⟨?_, h.have_pipe, h.nopend, h.nokeys, weak.pend, h.zero, ?_⟩
      · intro k m hm
        obtain ⟨x, hx, hk, rest⟩ := h.owned k m hm
        simp only [send_get]
        rw [hx]
        refine ⟨_, rfl, ?_, ?_⟩
        · show (if _ then _ else _ : Pipe).key = k
          split <;> exact hk
        · have : (if m = n ∧ x.live = true then { x with got := x.got ++ [p.body] } else x).conn = x.conn := by split <;> rfl
          rw [this]; exact rest
      · intro m y hy
        simp only [send_get] at hy
        obtain ⟨x, hx, rfl⟩ := Option.map_eq_some_iff.mp hy
        split
        · rename_i hc
          obtain ⟨rfl, _⟩ := hc
          rw [h1] at hx; cases hx
          show (q.got ++ [p.body]).Sublist (arrivals q.key q.conn (as ++ [.packet p]))
          rw [arrivals_snoc, h3]
          exact (h.sub m q h1).append (List.Sublist.refl _)
        · exact weak.sub m x hx
    · rename_i hn
      have hz : respCid p = 0 := by
        by_cases hz : respCid p = 0
        · exact hz
        · obtain ⟨a, b⟩ := h.have_pipe _ hz hn
          unfold readable at hr
          split at hr
          · rename_i hd
            have : respCid p = p.src := by simp [respCid, hd]
            rw [this] at a b
            rw [a, b] at hr; cases hr
          · rename_i hd
            exact absurd (by simp [respCid, hd]) hz
      have hd : p.dst = 0 := by
        by_cases hd : p.dst = 0
        · exact hd
        · have hs : p.src = 0 := by simpa [respCid, hd] using hz
          simp [readable, hd, hs, h.zero.1, h.zero.2] at hr
      have hc : s.c2s = some p.conn := by simpa [readable, hd] using hr
      rw [hz]
      refine ⟨h.owned, h.have_pipe, ?_, ?_, ?_, h.zero, weak.sub⟩
      · intro k hk
        simp only [put_other _ hk]; exact h.nopend k hk
      · intro hn; rw [hc] at hn; cases hn
      · intro c hc'
        rw [hc] at hc'; cases hc'
        simp only [put_same, arrivals_snoc]
        refine (h.pend _ hc).append ?_
        simp [arrivals, hd]
  · exact weak

theorem inv_create {s : Node} {as : List Act} (h : Inv s as) (k id : Nat) (a : Act) (hk : k ≠ 0) :
    Inv (openPipe { s with vconn := put s.vconn k (some { id := id }), stale := put s.stale k none } k id) (as ++ [a]) := by
  refine ⟨?_, ?_, ?_, ?_, ?_, ?_, ?_⟩
  · intro j n hj
    simp only [openPipe] at hj ⊢
    by_cases hjk : j = k
    · subst hjk
      simp only [put_same] at hj; cases hj
      refine ⟨_, by rw [List.getElem?_append_right (Nat.le_refl _)]; simp; rfl, rfl, fun _ => ⟨?_, ?_⟩, fun h => absurd h hk⟩
      · intro v hv; simp only [put_same] at hv; cases hv; rfl
      · intro r hr; simp only [put_same] at hr; cases hr
    · simp only [put_other _ hjk] at hj
      obtain ⟨p, h1, h2⟩ := h.owned j n hj
      refine ⟨p, by rw [List.getElem?_append_left (List.getElem?_eq_some_iff.mp h1).1]; exact h1, ?_⟩
      simp only [put_other _ hjk]; exact h2
  · intro j hj hn
    simp only [openPipe] at hn ⊢
    by_cases hjk : j = k
    · subst hjk; simp only [put_same] at hn; cases hn
    · simp only [put_other _ hjk] at hn ⊢
      exact h.have_pipe j hj hn
  · intro j hj
    simp only [openPipe]
    by_cases hjk : j = k
    · subst hjk; simp only [put_same]
    · simp only [put_other _ hjk]; exact h.nopend j hj
  · intro hc
    simp only [openPipe] at hc ⊢
    simp only [put_other _ (Ne.symm hk)]; exact h.nokeys hc
  · intro d hd
    simp only [openPipe] at hd ⊢
    simp only [put_other _ (Ne.symm hk)]; exact sub_more (h.pend d hd) a
  · simp only [openPipe]
    simp only [put_other _ (Ne.symm hk)]; exact h.zero
  · intro n p hn
    simp only [openPipe] at hn
    by_cases hlt : n < s.all.length
    · rw [List.getElem?_append_left hlt] at hn; exact sub_more (h.sub n p hn) a
    · rw [List.getElem?_append_right (by omega)] at hn
      cases hm : n - s.all.length with
      | zero =>
        rw [hm] at hn
        simp only [List.getElem?_cons_zero, Option.some.injEq] at hn
        subst hn
        simp [h.nopend k hk]
      | succ m => rw [hm] at hn; simp at hn

theorem inv_step {s : Node} {as : List Act} (h : Inv s as) (a : Act) : Inv (step s a) (as ++ [a]) := by
  have weak : Inv s (as ++ [a]) :=
    ⟨h.owned, h.have_pipe, h.nopend, h.nokeys, fun c hc => sub_more (h.pend c hc) _, h.zero, fun n q hq => sub_more (h.sub n q hq) _⟩
  cases a with
  | keys c =>
    simp only [step]
    split
    · exact weak
    · rename_i hc
      have hn : s.c2s = none := by simpa using hc
      refine ⟨?_, h.have_pipe, h.nopend, (by simp), ?_, h.zero, weak.sub⟩
      · intro k n hk
        obtain ⟨p, h1, h2, h3, h4⟩ := h.owned k n hk
        refine ⟨p, h1, h2, h3, fun h0 => ?_⟩
        have := h4 h0
        rw [hn] at this; cases this
      · intro d _; rw [show s.pending 0 = [] from h.nokeys hn]; exact List.nil_sublist _
  | openOwn =>
    simp only [step]
    split
    · rename_i c hc
      exact inv_open h 0 c _ (.inr rfl) (fun h => absurd rfl h) (fun _ => hc)
    · exact weak
  | create k id =>
    simp only [step, create]
    split
    · exact weak
    · rename_i hk
      split
      · split
        · exact weak
        · exact inv_create h k id _ hk
      · exact inv_create h k id _ hk
  | idle k =>
    simp only [step]
    split
    · rename_i v hv
      have hk : k ≠ 0 := fun e => by subst e; rw [h.zero.1] at hv; cases hv
      refine ⟨?_, ?_, h.nopend, h.nokeys, weak.pend, ?_, weak.sub⟩
      · intro j n hj
        obtain ⟨p, h1, h2, h3, h4⟩ := h.owned j n hj
        refine ⟨p, h1, h2, fun h0 => ⟨?_, (h3 h0).2⟩, h4⟩
        intro w hw
        by_cases hjk : j = k
        · subst hjk; simp only [put_same] at hw; cases hw; exact (h3 h0).1 v hv
        · simp only [put_other _ hjk] at hw; exact (h3 h0).1 w hw
      · intro j hj hn
        by_cases hjk : j = k
        · subst hjk; have := (h.have_pipe j hj hn).1; rw [hv] at this; cases this
        · simp only [put_other _ hjk]; exact h.have_pipe j hj hn
      · simp only [put_other _ (Ne.symm hk)]; exact h.zero
    · exact weak
  | gone k keep =>
    simp only [step]
    split
    · rename_i v hv
      have hk : k ≠ 0 := fun e => by subst e; rw [h.zero.1] at hv; cases hv
      refine ⟨?_, ?_, h.nopend, h.nokeys, weak.pend, ?_, weak.sub⟩
      · intro j n hj
        obtain ⟨p, h1, h2, h3, h4⟩ := h.owned j n hj
        refine ⟨p, h1, h2, fun h0 => ⟨?_, ?_⟩, h4⟩
        · intro w hw
          by_cases hjk : j = k
          · subst hjk; simp only [put_same] at hw; cases hw
          · simp only [put_other _ hjk] at hw; exact (h3 h0).1 w hw
        · intro r hr
          by_cases hjk : j = k
          · subst hjk
            cases keep with
            | true => simp only [if_true, put_same] at hr; cases hr; exact (h3 h0).1 v hv
            | false => exact (h3 h0).2 r hr
          · cases keep with
            | true => simp only [if_true, put_other _ hjk] at hr; exact (h3 h0).2 r hr
            | false => exact (h3 h0).2 r hr
      · intro j hj hn
        by_cases hjk : j = k
        · subst hjk; have := (h.have_pipe j hj hn).1; rw [hv] at this; cases this
        · simp only [put_other _ hjk]
          refine ⟨(h.have_pipe j hj hn).1, ?_⟩
          cases keep with
          | true => simp only [if_true, put_other _ hjk]; exact (h.have_pipe j hj hn).2
          | false => exact (h.have_pipe j hj hn).2
      · simp only [put_other _ (Ne.symm hk)]
        refine ⟨h.zero.1, ?_⟩
        cases keep with
        | true => simp only [if_true, put_other _ (Ne.symm hk)]; exact h.zero.2
        | false => exact h.zero.2
    · exact weak
  | rekey k old =>
    simp only [step]
    split
    · rename_i v hv
      have hk : k ≠ 0 := fun e => by subst e; rw [h.zero.1] at hv; cases hv
      refine ⟨?_, ?_, h.nopend, h.nokeys, weak.pend, ?_, weak.sub⟩
      · intro j n hj
        obtain ⟨p, h1, h2, h3, h4⟩ := h.owned j n hj
        refine ⟨p, h1, h2, fun h0 => ⟨?_, (h3 h0).2⟩, h4⟩
        intro w hw
        by_cases hjk : j = k
        · subst hjk; simp only [put_same] at hw; cases hw; exact (h3 h0).1 v hv
        · simp only [put_other _ hjk] at hw; exact (h3 h0).1 w hw
      · intro j hj hn
        by_cases hjk : j = k
        · subst hjk; have := (h.have_pipe j hj hn).1; rw [hv] at this; cases this
        · simp only [put_other _ hjk]; exact h.have_pipe j hj hn
      · simp only [put_other _ (Ne.symm hk)]; exact h.zero
    · exact weak
  | drop n =>
    simp only [step]
    split
    · rename_i q hq
      have hlt := (List.getElem?_eq_some_iff.mp hq).1
      refine ⟨?_, h.have_pipe, h.nopend, h.nokeys, weak.pend, h.zero, ?_⟩
      · intro j m hj
        obtain ⟨p, h1, h2, h3, h4⟩ := h.owned j m hj
        rw [List.getElem?_set]
        by_cases hm : n = m
        · subst hm
          rw [hq] at h1; cases h1
          exact ⟨{ q with live := false }, by simp [hlt], h2, h3, h4⟩
        · exact ⟨p, by simp [hm, h1], h2, h3, h4⟩
      · intro m p hm
        rw [List.getElem?_set] at hm
        split at hm
        · rename_i e
          cases hm
          exact weak.sub n q hq
        · exact weak.sub m p hm
    · exact weak
  | packet p => exact inv_receive h p

theorem inv_run {s : Node} {pre : List Act} (h : Inv s pre) (as : List Act) : Inv (run s as) (pre ++ as) := by
  induction as generalizing s pre with
  | nil => rw [List.append_nil]; exact h
  | cons a as ih => rw [show pre ++ a :: as = (pre ++ [a]) ++ as by simp]; exact ih (inv_step h a)

end Verif.PunchPipe

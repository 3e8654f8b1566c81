import Verif.GroupChan.Spec
/-
Invariants of the channels of groups.
-/
namespace Verif.GroupChan

theorem run_append (s : State) (as bs : List Act) : run s (as ++ bs) = run (run s as) bs := by
  induction as generalizing s with
  | nil => rfl
  | cons a as ih => simp only [List.cons_append, run, ih]

theorem log_append (s : State) (as bs : List Act) : log s (as ++ bs) = log s as ++ log (run s as) bs := by
  induction as generalizing s with
  | nil => rfl
  | cons a as ih => simp only [List.cons_append, run, log, ih, List.append_assoc]

theorem run_inv {P : State → Prop} (hP : ∀ s a, P s → P (step s a).1) (s : State) (as : List Act) (h : P s) : P (run s as) := by
  induction as generalizing s with
  | nil => exact h
  | cons a as ih => exact ih _ (hP s a h)

/-- What a step does. -/
inductive Eff (s : State) : State → Option (Sig × Place) → Prop
  | stay : Eff s s none
  | create (ho : s.owner = true) : Eff s { s with cgka := true, up := s.up ++ [.create] } none
  | send (r : Req) (ho : s.owner = false) (hr : r = .requestJoin ∨ r = .accept) : Eff s { s with up := s.up ++ [r] } none
  | put (n : Nat) (h : Handle) (r : Req) (hh : s.hs[n]? = some h) (hg : gate s r = true) (hc : h.q.length < s.cap) :
      Eff s { s with hs := s.hs.set n { h with q := h.q ++ [r] } } none
  | drop (n : Nat) (h : Handle) (hh : s.hs[n]? = some h) (hv : h.recv = true) (hc : h.q.length < s.cap) :
      Eff s { s with hs := s.hs.set n { recv := false, q := h.q ++ [.leave] } } none
  | lose (n : Nat) (h : Handle) (hh : s.hs[n]? = some h) (hv : h.recv = true) (hc : ¬ h.q.length < s.cap) :
      Eff s { s with hs := s.hs.set n { h with recv := false } } none
  | pump (n : Nat) (h : Handle) (r : Req) (rest : List Req) (hh : s.hs[n]? = some h) (hq : h.q = r :: rest)
      (hd : s.dead = false) : Eff s { s with hs := s.hs.set n { h with q := rest }, up := s.up ++ [r] } none
  | serve (r : Req) (rest : List Req) (hu : s.up = r :: rest) : Eff s (serveReq { s with up := rest } r) none
  | receive (g : Sig) (rest : List Sig) (hd : s.dead = false) (hw : s.down = g :: rest) :
      Eff s (handle { s with down := rest } g).1 (some (g, (handle { s with down := rest } g).2))
  | ownerCreate (ho : s.owner = false) (hx : s.ex = false) :
      Eff s { s with ex := true, mem := false, pend := false } none
  | ownerEnd (ho : s.owner = false) (hx : s.ex = true) :
      Eff s { s with ex := false, mem := false, pend := false,
                     down := if s.mem then s.down ++ [.disconnected] else s.down } none
  | ownerGone (ho : s.owner = false) : Eff s { s with ex := false, mem := false, pend := false, kps := 0 } none
  | invite (ho : s.owner = false) (hx : s.ex = true) : Eff s { s with pend := true, down := s.down ++ [.other 0] } none
  | letIn (ho : s.owner = false) (hx : s.ex = true) :
      Eff s { s with pend := false, mem := true, down := s.down ++ [.other 0] } none
  | kick (ho : s.owner = false) (hm : s.mem = true) : Eff s { s with mem := false, down := s.down ++ [.disconnected] } none
  | welcome (ho : s.owner = false) (hk : s.kps ≠ 0) : Eff s { s with kps := s.kps - 1, down := s.down ++ [.welcome] } none
  | post (x : Nat) (hx : s.ex = true) (hm : s.mem = true) : Eff s { s with down := s.down ++ [.other x] } none

theorem get_set_self {l : List Handle} {n : Nat} {h h' : Handle} (hh : l[n]? = some h) : (l.set n h')[n]? = some h' := by
  have := (List.getElem?_eq_some_iff.mp hh).1
  simp [this]

theorem eff_step (s : State) (a : Act) : Eff s (step s a).1 (step s a).2 := by
  cases a with
  | create =>
    simp only [step, stepState, reduceCtorEq, if_false]
    split
    · rename_i h; simp at h; exact .create h.1
    · exact .stay
  | requestJoin =>
    simp only [step, stepState, reduceCtorEq, if_false]
    split
    · exact .stay
    · rename_i h; simp at h; exact .send _ h.1 (.inl rfl)
  | accept =>
    simp only [step, stepState, reduceCtorEq, if_false]
    split
    · exact .stay
    · rename_i h; simp at h; exact .send _ h.1 (.inr rfl)
  | ask n r =>
    simp only [step, stepState, reduceCtorEq, if_false, ask, put]
    split
    · rename_i hg
      split
      · exact .stay
      · rename_i h hh
        split
        · rename_i hc; exact .put n h r hh hg hc
        · exact .stay
    · exact .stay
  | dropRecv n =>
    simp only [step, stepState, reduceCtorEq, if_false, dropRecv]
    split
    · exact .stay
    · rename_i h hh
      split
      · rename_i hv
        simp only [put, get_set_self hh, List.set_set]
        split
        · rename_i hc; exact .drop n h hh hv hc
        · rename_i hc; exact .lose n h hh hv hc
      · exact .stay
  | pump n =>
    simp only [step, stepState, reduceCtorEq, if_false, pump]
    split
    · exact .stay
    · rename_i hd
      split
      · exact .stay
      · rename_i h hh
        split
        · exact .stay
        · rename_i r rest hq; exact .pump n h r rest hh hq (by simpa using hd)
  | serve =>
    simp only [step, stepState, reduceCtorEq, if_false, serve]
    split
    · exact .stay
    · rename_i r rest hu; exact .serve r rest hu
  | receive =>
    simp only [step, stepState, if_true, receive]
    split
    · exact .stay
    · rename_i hd
      split
      · exact .stay
      · rename_i g rest hw; exact .receive g rest (by simpa using hd) hw
  | ownerCreate =>
    simp only [step, stepState, reduceCtorEq, if_false]
    split
    · exact .stay
    · rename_i h; simp at h; exact .ownerCreate h.1 h.2
  | ownerEnd =>
    simp only [step, stepState, reduceCtorEq, if_false]
    split
    · exact .stay
    · rename_i h; simp at h; exact .ownerEnd h.1 h.2
  | ownerGone =>
    simp only [step, stepState, reduceCtorEq, if_false]
    split
    · exact .stay
    · rename_i h; simp at h; exact .ownerGone h
  | invite =>
    simp only [step, stepState, reduceCtorEq, if_false]
    split
    · exact .stay
    · rename_i h; simp at h; exact .invite h.1 h.2
  | letIn =>
    simp only [step, stepState, reduceCtorEq, if_false]
    split
    · exact .stay
    · rename_i h; simp at h; exact .letIn h.1.1 h.1.2
  | kick =>
    simp only [step, stepState, reduceCtorEq, if_false]
    split
    · exact .stay
    · rename_i h; simp at h; exact .kick h.1.1 h.2
  | welcome =>
    simp only [step, stepState, reduceCtorEq, if_false]
    split
    · exact .stay
    · rename_i h; simp at h; exact .welcome h.1 h.2
  | post x =>
    simp only [step, stepState, reduceCtorEq, if_false]
    split
    · rename_i h; simp at h; exact .post x h.1 h.2
    · exact .stay

/-- What `handle` leaves as it is. -/
theorem handle_frame (s : State) (g : Sig) :
    (∃ l, (handle s g).1.up = s.up ++ l ∧ ∀ r ∈ l, r = .keyPackage) ∧ (∃ l, (handle s g).1.hs = s.hs ++ l ∧ ∀ h ∈ l, h.q = []) ∧
    (handle s g).1.owner = s.owner ∧ (handle s g).1.cap = s.cap ∧ (handle s g).1.down = s.down ∧ (handle s g).1.ex = s.ex ∧
    (handle s g).1.mem = s.mem ∧ (handle s g).1.kps = s.kps := by
  have nil : ∀ {α : Type} (l : List α) (P : α → Prop), ∃ l', l = l ++ l' ∧ ∀ x ∈ l', P x :=
    fun l P => ⟨[], (List.append_nil l).symm, by simp⟩
  have hop : ∀ s : State, (∃ l, (openChannel s).up = s.up ++ l ∧ ∀ r ∈ l, r = .keyPackage) ∧
      (∃ l, (openChannel s).hs = s.hs ++ l ∧ ∀ h ∈ l, h.q = []) ∧
      (openChannel s).owner = s.owner ∧ (openChannel s).cap = s.cap ∧ (openChannel s).down = s.down ∧
      (openChannel s).ex = s.ex ∧ (openChannel s).mem = s.mem ∧ (openChannel s).kps = s.kps := by
    intro s
    simp only [openChannel]
    split
    · exact ⟨nil _ _, nil _ _, rfl, rfl, rfl, rfl, rfl, rfl⟩
    · exact ⟨nil _ _, ⟨_, rfl, by simp⟩, rfl, rfl, rfl, rfl, rfl, rfl⟩
  cases g with
  | createResp ok =>
    cases ok with
    | true => exact hop s
    | false => exact ⟨nil _ _, nil _ _, rfl, rfl, rfl, rfl, rfl, rfl⟩
  | acceptResp ok =>
    simp only [handle]
    split
    · split
      · exact ⟨nil _ _, nil _ _, rfl, rfl, rfl, rfl, rfl, rfl⟩
      · exact ⟨⟨_, rfl, by simp⟩, nil _ _, rfl, rfl, rfl, rfl, rfl, rfl⟩
    · exact ⟨nil _ _, nil _ _, rfl, rfl, rfl, rfl, rfl, rfl⟩
  | welcome =>
    simp only [handle]
    split
    · exact hop s
    · exact ⟨nil _ _, nil _ _, rfl, rfl, rfl, rfl, rfl, rfl⟩
  | _ => exact ⟨nil _ _, nil _ _, rfl, rfl, rfl, rfl, rfl, rfl⟩

theorem serve_frame (s : State) (r : Req) : (serveReq s r).owner = s.owner ∧ (serveReq s r).reg = s.reg ∧
    (serveReq s r).hs = s.hs ∧ (serveReq s r).cap = s.cap ∧ (serveReq s r).up = s.up ∧ (serveReq s r).cgka = s.cgka := by
  cases r <;> simp only [serveReq] <;> (repeat' split) <;> simp

theorem step_owner (s : State) (a : Act) : (step s a).1.owner = s.owner ∧ (step s a).1.cap = s.cap := by
  have e := eff_step s a
  generalize (step s a).1 = s' at *
  generalize (step s a).2 = o at *
  cases e with
  | serve r rest hu => exact ⟨(serve_frame { s with up := rest } r).1, (serve_frame { s with up := rest } r).2.2.2.1⟩
  | receive g rest hd hw =>
    have := handle_frame { s with down := rest } g
    exact ⟨this.2.2.1, this.2.2.2.1⟩
  | _ => exact ⟨rfl, rfl⟩

theorem run_owner (o p : Bool) (c : Nat) (as : List Act) :
    (run (start o p c) as).owner = o ∧ (run (start o p c) as).cap = c :=
  run_inv (P := fun s => s.owner = o ∧ s.cap = c)
    (fun s a h => ⟨(step_owner s a).1.trans h.1, (step_owner s a).2.trans h.2⟩) (start o p c) as ⟨rfl, rfl⟩

end Verif.GroupChan

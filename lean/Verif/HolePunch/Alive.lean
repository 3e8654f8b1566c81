import Verif.HolePunch.Told
/-!
The poller does not give up; messages that are under way.
-/
namespace Verif.HolePunch

variable {R : Nat → Nat → Prop} {w : Net}

@[simp] theorem submit_poller (x : Node) (v : Nat × Nat) : (x.submit v).poller = x.poller := by
  unfold Node.submit
  split <;> rfl
@[simp] theorem submit_done (x : Node) (v : Nat × Nat) : (x.submit v).done = true := by
  unfold Node.submit
  split <;> rfl
@[simp] theorem submit_over (x : Node) (v : Nat × Nat) : (x.submit v).over = x.over := by
  unfold Node.submit
  split <;> rfl

structure Alive (x : Node) : Prop where
  poller : x.poller = true
  over : x.over = true → x.done = true
  ret : x.over = true → x.result = x.final

theorem Alive.congr {x x' : Node} (h : Alive x) (h1 : x'.poller = x.poller) (h2 : x'.over = x.over) (h3 : x'.done = x.done)
    (h4 : x'.result = x.result) (h5 : x'.final = x.final) :
    Alive x' := ⟨by rw [h1]; exact h.poller, by rw [h2, h3]; exact h.over, by rw [h2, h4, h5]; exact h.ret⟩

theorem Alive.through {x x' : Node} (h : Alive x) (h1 : x'.poller = x.poller) (h2 : x'.over = x.over) (hd : x.done = false)
    (h3 : x'.done = true) : Alive x' := by
  refine ⟨by rw [h1]; exact h.poller, fun _ => h3, ?_⟩
  intro e
  rw [h2] at e
  have := h.over e
  rw [hd] at this
  cases this

theorem Alive.returns {x x' : Node} (h : Alive x) (h1 : x'.poller = x.poller) (h3 : x'.done = true)
    (h4 : x'.result = x'.final) : Alive x' := ⟨by rw [h1]; exact h.poller, fun _ => h3, fun _ => h4⟩

theorem Alive.gone {x : Node} (h : Alive x) (hd : x.done = false) : x.over = false := by
  cases hx : x.over with
  | false => rfl
  | true =>
    have := h.over hx
    rw [hd] at this
    cases this

theorem Alive.both {w w' : Net} {s : Bool} (h : ∀ s, Alive (w.get s)) (h1 : Alive (w'.get s))
    (h2 : ∃ q, w'.get (!s) = { w.get (!s) with inbox := q }) : ∀ s, Alive (w'.get s) := by
  intro t
  by_cases e : t = s
  · subst e
    exact h1
  · have : t = !s := by
      cases t <;> cases s <;> simp_all
    subst this
    obtain ⟨q, e⟩ := h2
    rw [e]
    exact (h _).congr rfl rfl rfl rfl rfl

theorem Alive.one {w w' : Net} {s : Bool} (h : ∀ s, Alive (w.get s)) (h1 : Alive (w'.get s))
    (h2 : w'.get (!s) = w.get (!s)) : ∀ s, Alive (w'.get s) :=
  Alive.both h h1 ⟨_, h2⟩

theorem Alive.step (hi : Inv R w) (h : ∀ s, Alive (w.get s)) (ev : Ev) : ∀ s, Alive ((w.step ev).get s) := by
  cases ev with
  | tick s =>
    simp only [Net.step]
    split
    · exact h
    · rename_i hc
      have hd : (w.get s).done = false := by
        cases hx : (w.get s).done with
        | false => rfl
        | true => exact absurd (.inl hx) hc
      split
      · exact h
      · rename_i l r hcm
        obtain ⟨p0, hp0, hgot⟩ := hi.got (.inl hcm)
        split
        · exact Alive.one (s := s) h ((h s).through (by simp) (by simp) hd (by simp)) (by simp)
        · have hlist : (w.get s).allListed = true → p0.st = .listed := fun e => (allListed_iff _).mp e l p0 hp0
          split
          · rename_i p hp
            have : p = p0 := by
              have hp : (w.get s).ps[l]? = some p := hp
              rw [hp0] at hp
              cases hp
              rfl
            subst this
            split
            · exact Alive.one (s := s) h ((h s).through (by simp [Node.setP]) (by simp [Node.setP]) hd (by simp)) (by simp)
            · rename_i hno
              split
              · rename_i hall
                exact absurd ⟨hlist hall, hgot⟩ hno
              · exact Alive.one (s := s) h ((h s).congr (by simp) (by simp) (by simp) (by simp) (by simp)) (by simp)
          · rename_i hp
            have hp : (w.get s).ps[l]? = none := hp
            rw [hp0] at hp
            cases hp
  | bothFailed s =>
    simp only [Net.step]
    split
    · exact h
    · rename_i hc
      exact absurd (.inr (.inl (h s).poller)) hc
  | syn s i j | ack s i j | fail s i | kill s i =>
    simp only [Net.step]
    repeat' split
    all_goals first
      | exact h
      | (refine Alive.one (s := s) h ((h s).congr ?_ ?_ ?_ ?_ ?_) ?_ <;> simp [Node.setP]; done)
  | next s i =>
    simp only [Net.step]
    repeat' split
    all_goals first
      | exact h
      | (refine Alive.one (s := s) h ((h s).congr ?_ ?_ ?_ ?_ ?_) ?_ <;> simp [Node.setP]; done)
      | exact Alive.both (s := s) h ((h s).congr (by simp [Node.setP]) (by simp [Node.setP]) (by simp [Node.setP]) (by simp [Node.setP]) (by simp [Node.setP])) ⟨_, by rw [Net.get_failure', Net.get_set']⟩
  | check s | lock s | lockFail s | endRes s =>
    simp only [Net.step]
    repeat' split
    all_goals first
      | exact h
      | exact Alive.one (s := s) h ((h s).congr (by simp) (by simp) (by simp) (by simp) (by simp)) (by simp)
  | win s =>
    simp only [Net.step]
    split
    · rename_i i j hr
      have hd := hi.notDone (s := s) (by rw [hr]; simp)
      have hf := (hi.half s).final hd
      split
      · exact Alive.one (s := s) h ((h s).through (by simp) (by simp) hd (by simp)) (by simp)
      · refine Alive.one (s := s) h ((h s).returns (by simp) (by simp) ?_) (by simp)
        simp only [Net.get_release, Net.get_set]
        rw [hf]
        cases hres : (w.get s).result with
        | none => rfl
        | some v =>
          have := (hi.half s).resu v hres
          rw [hf] at this
          cases this
    · exact h
  | rebuild s =>
    simp only [Net.step]
    split
    · exact h
    · rename_i hc
      have hd : (w.get s).done = false := by
        cases hx : (w.get s).done with
        | false => rfl
        | true => exact absurd (.inl hx) hc
      split
      · exact h
      · exact Alive.one (s := s) h ((h s).through (by simp) (by simp) hd (by simp)) (by simp)
      · exact Alive.one (s := s) h ((h s).congr (by simp) (by simp) (by simp) (by simp) (by simp)) (by simp)
  | send s =>
    simp only [Net.step]
    split
    · exact Alive.both (s := s) h ((h s).congr (by simp) (by simp) (by simp) (by simp) (by simp)) ⟨_, by rw [Net.get_post, Net.get_set']⟩
    · exact h
  | read s =>
    simp only [Net.step]
    repeat' split
    all_goals first
      | exact h
      | (refine Alive.one (s := s) h ((h s).congr ?_ ?_ ?_ ?_ ?_) ?_ <;> simp; done)
      | exact Alive.both (s := s) h ((h s).congr (by simp) (by simp) (by simp) (by simp) (by simp)) ⟨_, by rw [Net.get_failure', Net.get_set']⟩
  | finish s =>
    simp only [Net.step]
    split
    · exact h
    · rename_i hc
      have hd : (w.get s).done = true := by
        cases hx : (w.get s).done with
        | true => rfl
        | false => exact absurd (.inl hx) hc
      split
      · split
        · exact h
        · exact Alive.one (s := s) h ((h s).returns (by simp) (by simpa using hd) (by simp)) (by simp)
      · exact Alive.both (s := s) h ((h s).returns (by simp) (by simpa using hd) (by simp)) ⟨_, by rw [Net.get_post, Net.get_set']⟩

theorem ReachR.alive {n m : Nat} (h : ReachR R n m w) : ∀ s, Alive (w.get s) := by
  induction h with
  | init =>
    intro s
    cases s <;> constructor <;> simp [Net.init, Net.get]
  | step ev hr _ ih => exact Alive.step hr.inv ih ev

theorem eq_or_not (s t : Bool) : s = t ∨ s = !t := by
  cases s <;> cases t <;> simp

theorem Net.done_step {w : Net} {s : Bool} (h : (w.get s).done = true) (ev : Ev) : ((w.step ev).get s).done = true := by
  cases ev with
  | syn t _ _ | ack t _ _ | fail t _ | kill t _ | next t _ | check t | lock t | lockFail t | send t | win t | endRes t | read t
  | tick t | rebuild t | bothFailed t | finish t =>
    simp only [Net.step]
    rcases eq_or_not s t with e | e <;> subst e <;> repeat' split
    all_goals first
      | exact h
      | (simp [Node.setP]; done)
      | (simp [Node.setP]; exact h)

theorem Net.length_step (w : Net) (s : Bool) (ev : Ev) : ((w.step ev).get s).ps.length = (w.get s).ps.length := by
  cases ev with
  | syn t _ _ | ack t _ _ | fail t _ | kill t _ | next t _ | check t | lock t | lockFail t | send t | win t | endRes t | read t
  | tick t | rebuild t | bothFailed t | finish t =>
    simp only [Net.step]
    rcases eq_or_not s t with e | e <;> subst e <;> repeat' split
    all_goals first
      | rfl
      | (simp [Node.setP]; done)

end Verif.HolePunch

import Verif.SendFile.Spec

/-! Invariants of the way from a source to the groups. -/

namespace Verif.SendFile

/-- The groups of the channel. -/
def oks : List Msg → List Group
  | [] => []
  | .ok g :: q => g :: oks q
  | .err :: q => oks q

/-- The errors of the channel. -/
def errs : List Msg → Nat
  | [] => 0
  | .ok _ :: q => errs q
  | .err :: q => errs q + 1

theorem oks_append (a b : List Msg) : oks (a ++ b) = oks a ++ oks b := by
  induction a with
  | nil => rfl
  | cons m a ih => cases m <;> simp [oks, ih]

theorem errs_append (a b : List Msg) : errs (a ++ b) = errs a + errs b := by
  induction a with
  | nil => simp [errs]
  | cons m a ih => cases m <;> simp [errs, ih]; omega

theorem oks_length (q : List Msg) : (oks q).length ≤ q.length := by
  induction q with
  | nil => simp [oks]
  | cons m q ih => cases m <;> simp [oks] <;> omega

def Phase.held : Phase → List Group
  | .holding g => [g]
  | _ => []

def Phase.bytes : Phase → Bytes
  | .task b => b
  | _ => []

/-- All groups that were made and not lost. -/
def all (s : State) : List Group := s.sent ++ oks s.queue ++ s.phase.held

/-- The first `n` groups as they should be. -/
def gs (data : Bytes) (len size first n : Nat) : List Group :=
  (List.range n).map fun i => ⟨first + i, piece data len size i⟩

theorem gs_length (data : Bytes) (len size first n : Nat) : (gs data len size first n).length = n := by
  simp [gs]

theorem gs_succ (data : Bytes) (len size first n : Nat) :
    gs data len size first (n + 1) = gs data len size first n ++ [⟨first + n, piece data len size n⟩] := by
  simp [gs, List.range_succ]

theorem gs_prefix {data : Bytes} {len size first n : Nat} {x y : List Group}
    (h : x ++ y = gs data len size first n) : x = gs data len size first x.length := by
  have hn : x.length + y.length = n := by
    have := congrArg List.length h
    rw [gs_length, List.length_append] at this; exact this
  induction y generalizing n x with
  | nil => simp at h hn; rw [hn]; exact h
  | cons a y ih =>
    have h' : (x ++ [a]) ++ y = gs data len size first n := by simpa using h
    have := ih h' (by simp at hn ⊢; omega)
    simp only [List.length_append, List.length_singleton] at this
    rw [gs_succ] at this
    exact (List.append_inj' this rfl).1

theorem whole_gs (data : Bytes) (len size first n : Nat) :
    whole (gs data len size first n) = (data.take len).take (n * size) := by
  induction n with
  | zero => simp [whole, gs]
  | succ n ih =>
    rw [gs_succ]
    have : (n + 1) * size = n * size + size := by rw [Nat.add_mul, Nat.one_mul]
    rw [this, List.take_add]
    unfold whole at ih ⊢
    rw [List.map_append, List.flatten_append, ih]
    simp [piece]

structure Inv (data : Bytes) (len size first : Nat) (s : State) : Prop where
  hlen : s.len = len
  hsize : s.size = size
  hstart : s.start = first
  pos : 0 < size
  all : all s = gs data len size first (all s).length
  count : s.phase ≠ .done → (SendFile.all s).length = s.rendered
  cur : s.cursor = min len (s.rendered * size)
  last : s.rendered = 0 ∨ (s.rendered - 1) * size < len
  rest : s.phase ≠ .done → s.rest = data.drop (s.cursor + s.phase.bytes.length)
  task : ∀ b, s.phase = .task b → b = piece data len size s.rendered ∧
    b.length = min (len - s.cursor) size ∧ s.cursor ≠ len
  end' : s.cons = .closed → s.phase = .done ∧ s.queue = []
  room : s.queue.length ≤ 5

theorem inv_start (data : Bytes) (len size first : Nat) (h : 0 < size) :
    Inv data len size first (start data len size first) := by
  constructor <;> simp [start, all, oks, Phase.held, Phase.bytes, gs, h]

variable {data : Bytes} {len size first : Nat}

theorem all_done {s t : State} (hs : t.sent = s.sent) (hq : oks t.queue = oks s.queue)
    (hp : t.phase = .done) (h : all s = gs data len size first (all s).length) :
    all t = gs data len size first (all t).length := by
  have : all s = all t ++ s.phase.held := by simp [all, hs, hq, hp, Phase.held]
  rw [this] at h
  exact gs_prefix h

/-- The streamer ends, with or without an error message. -/
theorem inv_done {s : State} (h : Inv data len size first s) (hc : s.cons ≠ .closed) (q : List Msg)
    (hq : oks q = oks s.queue) (hr : q.length ≤ 5) :
    Inv data len size first { s with phase := .done, queue := q } := by
  refine ⟨h.hlen, h.hsize, h.hstart, h.pos, ?_, ?_, h.cur, h.last, ?_, ?_, ?_, hr⟩
  · exact all_done (s := s) rfl hq rfl h.all
  · intro hn; exact absurd rfl hn
  · intro hn; exact absurd rfl hn
  · intro b hb; cases hb
  · intro hx; exact absurd hx hc

theorem not_closed {s : State} (h : Inv data len size first s) (hp : s.phase ≠ .done) :
    s.cons ≠ .closed := fun hc => hp (h.end' hc).1

theorem inv_read {s : State} (h : Inv data len size first s) : Inv data len size first (read s) := by
  unfold read
  split
  · rename_i hp
    have hnd : s.phase ≠ .done := by rw [hp]; simp
    have hc := not_closed h hnd
    split
    · exact inv_done h hc s.queue rfl h.room
    · rename_i hne
      simp only
      split
      · exact inv_done h hc s.queue rfl h.room
      · rename_i hl
        have hrest := h.rest hnd
        rw [hp] at hrest
        simp only [Phase.bytes, List.length_nil, Nat.add_zero] at hrest
        have hne' : s.cursor ≠ len := by rw [← h.hlen]; exact hne
        have hcur : s.cursor = s.rendered * size ∧ s.rendered * size < len := by
          have := h.cur; omega
        have hlen : (s.rest.take (min (s.len - s.cursor) s.size)).length = min (len - s.cursor) size := by
          rw [List.length_take, h.hlen, h.hsize]
          rw [h.hlen, h.hsize] at hl
          omega
        have hall : ∀ b r, all { s with phase := .task b, rest := r } = all s := by
          intro b r; simp [all, hp, Phase.held]
        refine ⟨h.hlen, h.hsize, h.hstart, h.pos, ?_, ?_, h.cur, h.last, ?_, ?_, ?_, h.room⟩
        · rw [hall]; exact h.all
        · intro _; rw [hall]; exact h.count hnd
        · intro _
          simp only [Phase.bytes, hlen]
          rw [h.hlen, h.hsize, hrest, List.drop_drop]
        · intro b hb
          cases hb
          refine ⟨?_, hlen, hne'⟩
          rw [hrest, h.hlen, h.hsize]
          unfold piece
          rw [List.drop_take, List.take_take, hcur.1, Nat.min_comm]
        · intro hx; exact absurd hx hc
  · exact h

theorem inv_enc {s : State} (h : Inv data len size first s) (ok : Bool) :
    Inv data len size first (enc s ok) := by
  unfold enc
  split
  · rename_i b hp
    have hnd : s.phase ≠ .done := by rw [hp]; simp
    have hc := not_closed h hnd
    split
    · obtain ⟨hb, hl, hne⟩ := h.task b hp
      have hcur : s.cursor = s.rendered * size ∧ s.rendered * size < len := by
        have := h.cur; omega
      have hm : (s.rendered + 1) * size = s.rendered * size + size := by
        rw [Nat.add_mul, Nat.one_mul]
      have hall : all { s with
          phase := .holding ⟨s.start + s.rendered, b⟩
          rendered := s.rendered + 1
          cursor := s.cursor + b.length } =
          gs data len size first (s.rendered + 1) := by
        have h0 : all s = s.sent ++ oks s.queue := by simp [all, hp, Phase.held]
        have h1 := h.all
        rw [h.count hnd, h0] at h1
        rw [gs_succ, ← h1]
        simp [all, Phase.held, h.hstart, hb]
      refine ⟨h.hlen, h.hsize, h.hstart, h.pos, ?_, ?_, ?_, ?_, ?_, ?_, ?_, h.room⟩
      · rw [hall, gs_length]
      · intro _; rw [hall, gs_length]
      · simp only [hl, hm]; omega
      · right; simp only [Nat.add_sub_cancel]; exact hcur.2
      · intro _
        have := h.rest hnd
        rw [hp] at this
        simpa [Phase.bytes] using this
      · intro b hb; cases hb
      · intro hx; exact absurd hx hc
    · exact inv_done h hc s.queue rfl h.room
  · exact h

theorem inv_push {s : State} (h : Inv data len size first s) : Inv data len size first (push s) := by
  unfold push
  split
  · rename_i g hp
    have hnd : s.phase ≠ .done := by rw [hp]; simp
    have hc := not_closed h hnd
    split
    · exact inv_done h hc s.queue rfl h.room
    · split
      · rename_i hl
        have hall : all { s with phase := Phase.reading, queue := s.queue ++ [Msg.ok g] } = all s := by
          simp [all, hp, Phase.held, oks_append, oks]
        refine ⟨h.hlen, h.hsize, h.hstart, h.pos, ?_, ?_, h.cur, h.last, ?_, ?_, ?_, ?_⟩
        · rw [hall]; exact h.all
        · intro _; rw [hall]; exact h.count hnd
        · intro _
          have := h.rest hnd
          rw [hp] at this
          simpa [Phase.bytes] using this
        · intro b hb; cases hb
        · intro hx; exact absurd hx hc
        · simp only [List.length_append, List.length_singleton]; omega
      · exact h
  · exact h

theorem inv_stop {s : State} (h : Inv data len size first s) (d : Bool) :
    Inv data len size first (stop s d) := by
  unfold stop
  split
  · exact h
  · rename_i hnd
    have hc := not_closed h hnd
    split
    · rename_i hh
      exact inv_done h hc _ (by simp [oks_append, oks]) (by simp; omega)
    · exact inv_done h hc s.queue rfl h.room

theorem inv_cons {s : State} (h : Inv data len size first s) (c : Cons)
    (hc : c = .closed → s.phase = .done ∧ s.queue = []) :
    Inv data len size first { s with cons := c } :=
  ⟨h.hlen, h.hsize, h.hstart, h.pos, h.all, h.count, h.cur, h.last, h.rest, h.task, hc, h.room⟩

theorem inv_take {s : State} (h : Inv data len size first s) : Inv data len size first (take s) := by
  unfold take
  split
  · rename_i hr
    split
    · rename_i g q hq
      have hall : all { s with queue := q, sent := s.sent ++ [g], cons := Cons.paused } = all s := by
        simp [all, hq, oks]
      have hro := h.room
      rw [hq] at hro
      refine ⟨h.hlen, h.hsize, h.hstart, h.pos, ?_, ?_, h.cur, h.last, h.rest, h.task, ?_, ?_⟩
      · rw [hall]; exact h.all
      · rw [hall]; exact h.count
      · intro hx; cases hx
      · simp at hro ⊢; omega
    · rename_i q hq
      have hall : all { s with queue := q, reports := s.reports + 1 } = all s := by
        simp [all, hq, oks]
      have hro := h.room
      rw [hq] at hro
      refine ⟨h.hlen, h.hsize, h.hstart, h.pos, ?_, ?_, h.cur, h.last, h.rest, h.task, ?_, ?_⟩
      · rw [hall]; exact h.all
      · rw [hall]; exact h.count
      · intro hx; simp only at hx; rw [hr] at hx; cases hx
      · simp at hro ⊢; omega
    · rename_i hq
      split
      · rename_i hp
        exact inv_cons h _ (fun _ => ⟨hp, hq⟩)
      · exact h
  · exact h

theorem inv_step {s : State} (h : Inv data len size first s) (e : Event) :
    Inv data len size first (step s e) := by
  cases e with
  | read => exact inv_read h
  | enc ok => exact inv_enc h ok
  | push => exact inv_push h
  | stop d => exact inv_stop h d
  | begin ok =>
    simp only [step, begin]
    split
    · exact inv_cons h _ (by cases ok <;> simp)
    · exact h
  | take => exact inv_take h
  | alert =>
    simp only [step, alert]
    split
    · exact inv_cons h _ (by simp)
    · exact h
  | quit =>
    simp only [step, quit]
    split
    · exact h
    · exact inv_cons h _ (by simp)

theorem inv_run : ∀ (es : List Event) (s : State), Inv data len size first s →
    Inv data len size first (run s es)
  | [], _, h => h
  | e :: es, s, h => inv_run es (step s e) (inv_step h e)

/-- When nothing fails: nothing is lost while somebody listens. -/
structure Good (len : Nat) (s : State) : Prop where
  none : s.cons ≠ .gone → (all s).length = s.rendered
  fin : s.cons ≠ .gone → s.phase = .done → s.cursor = len
  errs : errs s.queue = 0

theorem good_cons {s : State} (h : Good len s) (hn : s.cons ≠ .gone) (c : Cons) :
    Good len { s with cons := c } :=
  ⟨fun _ => h.none hn, fun _ => h.fin hn, h.errs⟩

theorem good_step {s : State} (hi : Inv data len size first s) (hd : len ≤ data.length)
    (h : Good len s) (e : Event) (he : Smooth e) : Good len (step s e) := by
  cases e with
  | read =>
    simp only [step, read]
    split
    · rename_i hp
      have hnd : s.phase ≠ .done := by rw [hp]; simp
      split
      · rename_i hc
        refine ⟨?_, fun _ _ => by rw [← hi.hlen]; exact hc, h.errs⟩
        intro hn
        have := h.none hn
        simpa [all, hp, Phase.held] using this
      · rename_i hc
        split
        · rename_i hl
          exfalso
          have hrest := hi.rest hnd
          rw [hp] at hrest
          simp only [Phase.bytes, List.length_nil, Nat.add_zero] at hrest
          rw [hrest, List.length_drop, hi.hlen, hi.hsize] at hl
          have h2 := hi.cur
          rw [hi.hlen] at hc
          omega
        · refine ⟨?_, ?_, h.errs⟩
          · intro hn
            have := h.none hn
            simpa [all, hp, Phase.held] using this
          · intro _ hx; cases hx
    · exact h
  | enc ok =>
    have hok : ok = true := he
    subst hok
    simp only [step, enc]
    split
    · rename_i b hp
      refine ⟨?_, ?_, h.errs⟩
      · intro hn
        have := h.none hn
        simp [all, hp, Phase.held] at this ⊢
        omega
      · intro _ hx; cases hx
    · exact h
  | push =>
    simp only [step, push]
    split
    · rename_i g hp
      split
      · rename_i ht
        have hnd : s.phase ≠ .done := by rw [hp]; simp
        have hc := not_closed hi hnd
        have hg : s.cons = .gone := by
          cases hx : s.cons <;> simp_all [Cons.there]
        exact ⟨fun hn => absurd hg hn, fun hn => absurd hg hn, h.errs⟩
      · split
        · refine ⟨?_, ?_, by simp [errs_append, h.errs, SendFile.errs]⟩
          · intro hn
            have := h.none hn
            simpa [all, hp, Phase.held, oks_append, oks] using this
          · intro _ hx; cases hx
        · exact h
    · exact h
  | stop d => exact absurd he (by simp [Smooth])
  | begin ok =>
    simp only [step, begin]
    split
    · rename_i hw
      exact good_cons h (by rw [hw]; simp) _
    · exact h
  | take =>
    simp only [step, take]
    split
    · rename_i hr
      have hn : s.cons ≠ .gone := by rw [hr]; simp
      split
      · rename_i g q hq
        refine ⟨fun _ => ?_, fun _ => h.fin hn, ?_⟩
        · have := h.none hn
          simpa [all, hq, oks, Nat.add_assoc, Nat.add_comm, Nat.add_left_comm] using this
        · have := h.errs; rw [hq] at this; simpa [SendFile.errs] using this
      · rename_i q hq
        have := h.errs; rw [hq] at this; simp [SendFile.errs] at this
      · split
        · exact good_cons h hn _
        · exact h
    · exact h
  | alert =>
    simp only [step, alert]
    split
    · rename_i hw
      exact good_cons h (by rw [hw]; simp) _
    · exact h
  | quit =>
    simp only [step, quit]
    split
    · exact h
    · exact ⟨fun hn => absurd rfl hn, fun hn => absurd rfl hn, h.errs⟩

theorem good_run (hd : len ≤ data.length) : ∀ (es : List Event) (s : State),
    Inv data len size first s → Good len s → (∀ e, e ∈ es → Smooth e) → Good len (run s es)
  | [], _, _, h, _ => h
  | e :: es, s, hi, h, he =>
    good_run hd es (step s e) (inv_step hi e) (good_step hi hd h e (he e List.mem_cons_self))
      (fun e' h' => he e' (List.mem_cons_of_mem _ h'))

/-- Reports, and errors that are still to be reported. -/
def tot (s : State) : Nat := s.reports + errs s.queue

theorem tot_step (s : State) (e : Event) (h : s.phase = .done ∨ ∀ d, e ≠ .stop d) :
    tot (step s e) = tot s := by
  cases e with
  | read =>
    simp only [step, read]
    split
    · split
      · rfl
      · split <;> rfl
    · rfl
  | enc ok =>
    simp only [step, enc]
    split
    · split <;> rfl
    · rfl
  | push =>
    simp only [step, push]
    split
    · split
      · rfl
      · split
        · simp [tot, errs_append, errs]
        · rfl
    · rfl
  | stop d =>
    rcases h with h | h
    · simp [step, stop, h]
    · exact absurd rfl (h d)
  | begin ok => simp only [step, begin]; split <;> rfl
  | take =>
    simp only [step, take]
    split
    · split
      · rename_i g q hq; simp [tot, hq, errs]
      · rename_i q hq; simp [tot, hq, errs]; omega
      · split <;> rfl
    · rfl
  | alert => simp only [step, alert]; split <;> rfl
  | quit => simp only [step, quit]; split <;> rfl

theorem done_step (s : State) (e : Event) (h : s.phase = .done) : (step s e).phase = .done := by
  cases e with
  | read => simp [step, read, h]
  | enc ok => simp [step, enc, h]
  | push => simp [step, push, h]
  | stop d => simp [step, stop, h]
  | begin ok => simp only [step, begin]; split <;> exact h
  | take =>
    simp only [step, take]
    split
    · split
      · exact h
      · exact h
      · split <;> exact h
    · exact h
  | alert => simp only [step, alert]; split <;> exact h
  | quit => simp only [step, quit]; split <;> exact h

theorem tot_done : ∀ (es : List Event) (s : State), s.phase = .done → tot (run s es) = tot s
  | [], _, _ => rfl
  | e :: es, s, h => by
    show tot (run (step s e) es) = tot s
    rw [tot_done es (step s e) (done_step s e h), tot_step s e (.inl h)]

theorem tot_run : ∀ (es : List Event) (s : State), (∀ d, Event.stop d ∉ es) → tot (run s es) = tot s
  | [], _, _ => rfl
  | e :: es, s, h => by
    show tot (run (step s e) es) = tot s
    rw [tot_run es (step s e) (fun d hd => h d (List.mem_cons_of_mem _ hd)),
      tot_step s e (.inr fun d hd => h d (by rw [hd]; exact List.mem_cons_self))]

/-- Groups that are in hand. -/
def Phase.busy : Phase → Nat
  | .reading => 0
  | _ => 1

/-- How much was read is bounded by the groups that are there. -/
def Ahead (data : Bytes) (size : Nat) (s : State) : Prop :=
  s.size = size ∧ data.length ≤
    s.rest.length + (s.sent.length + (oks s.queue).length + s.phase.busy) * size

theorem ahead_le {s t : State} (h : Ahead data size s) (hs : t.size = s.size) (hr : t.rest = s.rest)
    (hc : s.sent.length + (oks s.queue).length + s.phase.busy ≤
      t.sent.length + (oks t.queue).length + t.phase.busy) : Ahead data size t := by
  refine ⟨by rw [hs]; exact h.1, ?_⟩
  rw [hr]
  have := Nat.mul_le_mul_right size hc
  have := h.2
  omega

theorem busy_le (p : Phase) : p.busy ≤ 1 := by cases p <;> simp [Phase.busy]

theorem ahead_step {s : State} (h : Ahead data size s) (e : Event) : Ahead data size (step s e) := by
  have hb := busy_le s.phase
  cases e with
  | read =>
    simp only [step, read]
    split
    · rename_i hp
      split
      · exact ahead_le h rfl rfl (by simp [hp, Phase.busy])
      · split
        · exact ahead_le h rfl rfl (by simp [hp, Phase.busy])
        · rename_i hl
          refine ⟨h.1, ?_⟩
          have h2 := h.2
          have h1 := h.1
          rw [hp] at h2
          simp only [Phase.busy, Nat.add_zero, List.length_drop] at h2 ⊢
          rw [Nat.add_mul, Nat.one_mul]
          omega
    · exact h
  | enc ok =>
    simp only [step, enc]
    split
    · rename_i b hp
      split <;> exact ahead_le h rfl rfl (by simp [hp, Phase.busy])
    · exact h
  | push =>
    simp only [step, push]
    split
    · rename_i g hp
      split
      · exact ahead_le h rfl rfl (by simp [hp, Phase.busy])
      · split
        · exact ahead_le h rfl rfl (by simp [hp, Phase.busy, oks_append, oks]; omega)
        · exact h
    · exact h
  | stop d =>
    simp only [step, stop]
    split
    · exact h
    · split
      · exact ahead_le h rfl rfl (by simp only [oks_append, oks, List.append_nil]; show _ ≤ _ + 1; omega)
      · exact ahead_le h rfl rfl (by show _ ≤ s.sent.length + (oks s.queue).length + 1; omega)
  | begin ok => simp only [step, begin]; split <;> exact h
  | take =>
    simp only [step, take]
    split
    · split
      · rename_i g q hq
        exact ahead_le h rfl rfl (by simp [hq, oks]; omega)
      · rename_i q hq
        exact ahead_le h rfl rfl (by simp [hq, oks])
      · split <;> exact h
    · exact h
  | alert => simp only [step, alert]; split <;> exact h
  | quit => simp only [step, quit]; split <;> exact h

theorem ahead_run : ∀ (es : List Event) (s : State), Ahead data size s → Ahead data size (run s es)
  | [], _, h => h
  | e :: es, s, h => ahead_run es (step s e) (ahead_step h e)

/-- What closes, closes with nothing left. -/
theorem closed_step (s : State) (e : Event)
    (h : s.cons = .closed → s.phase = .done ∧ s.queue = []) :
    (step s e).cons = .closed → (step s e).phase = .done ∧ (step s e).queue = [] := by
  cases e with
  | read =>
    simp only [step, read]
    split
    · rename_i hp
      split
      · intro hc; rw [hp] at h; exact absurd (h hc).1 (by simp)
      · split <;> (intro hc; rw [hp] at h; exact absurd (h hc).1 (by simp))
    · exact h
  | enc ok =>
    simp only [step, enc]
    split
    · rename_i b hp
      split <;> (intro hc; rw [hp] at h; exact absurd (h hc).1 (by simp))
    · exact h
  | push =>
    simp only [step, push]
    split
    · rename_i g hp
      split
      · intro hc; rw [hp] at h; exact absurd (h hc).1 (by simp)
      · split
        · intro hc; rw [hp] at h; exact absurd (h hc).1 (by simp)
        · exact h
    · exact h
  | stop d =>
    simp only [step, stop]
    split
    · exact h
    · rename_i hp
      split <;> (intro hc; exact absurd (h hc).1 hp)
  | begin ok =>
    simp only [step, begin]
    split
    · intro hc; cases ok <;> simp at hc
    · exact h
  | take =>
    simp only [step, take]
    split
    · rename_i hr
      split
      · intro hc; cases hc
      · intro hc; simp only at hc; rw [hr] at hc; cases hc
      · rename_i hq
        split
        · rename_i hp; exact fun _ => ⟨hp, hq⟩
        · exact h
    · exact h
  | alert =>
    simp only [step, alert]
    split
    · intro hc; cases hc
    · exact h
  | quit =>
    simp only [step, quit]
    split
    · exact h
    · intro hc; cases hc

theorem closed_run : ∀ (es : List Event) (s : State),
    (s.cons = .closed → s.phase = .done ∧ s.queue = []) →
    (run s es).cons = .closed → (run s es).phase = .done ∧ (run s es).queue = []
  | [], _, h => h
  | e :: es, s, h => closed_run es (step s e) (closed_step s e h)

theorem closed_empty (es : List Event) (s : State) (h : s.cons ≠ .closed)
    (hc : (run s es).cons = .closed) : (run s es).queue = [] :=
  (closed_run es s (fun hx => absurd hx h) hc).2

/-- Groups sent, and whether one may be sent without asking. -/
def asked (s : State) : Nat :=
  s.sent.length + match s.cons with
    | .waiting => 1
    | .ready => 1
    | _ => 0

theorem asked_step (s : State) (e : Event) : asked (step s e) ≤ asked s + alerts [e] := by
  cases e with
  | read =>
    simp only [step, read]
    split
    · split
      · exact Nat.le_add_right _ _
      · split <;> exact Nat.le_add_right _ _
    · exact Nat.le_add_right _ _
  | enc ok =>
    simp only [step, enc]
    split
    · split <;> exact Nat.le_add_right _ _
    · exact Nat.le_add_right _ _
  | push =>
    simp only [step, push]
    split
    · split
      · exact Nat.le_add_right _ _
      · split <;> exact Nat.le_add_right _ _
    · exact Nat.le_add_right _ _
  | stop d =>
    simp only [step, stop]
    split
    · exact Nat.le_add_right _ _
    · split <;> exact Nat.le_add_right _ _
  | begin ok =>
    simp only [step, begin]
    split
    · rename_i hw; cases ok <;> simp [asked, hw]; omega
    · exact Nat.le_add_right _ _
  | take =>
    simp only [step, take]
    split
    · rename_i hr
      split
      · simp [asked, hr]
      · simp [asked, hr]
      · split
        · simp [asked, hr]; omega
        · exact Nat.le_add_right _ _
    · exact Nat.le_add_right _ _
  | alert =>
    simp only [step, alert]
    split
    · rename_i hw; simp [asked, hw, alerts]
    · exact Nat.le_add_right _ _
  | quit =>
    simp only [step, quit]
    split
    · exact Nat.le_add_right _ _
    · simp [asked]; omega

theorem alerts_cons (e : Event) (es : List Event) : alerts (e :: es) = alerts [e] + alerts es := by
  cases e <;> simp [alerts, Nat.add_comm]

theorem asked_run : ∀ (es : List Event) (s : State), asked (run s es) ≤ asked s + alerts es
  | [], _ => Nat.le_add_right _ _
  | e :: es, s => by
    have h1 := asked_run es (step s e)
    have h2 := asked_step s e
    rw [alerts_cons]
    show asked (run (step s e) es) ≤ _
    omega

theorem wait_step (s : State) (e : Event) (hs : s.sent = [])
    (hw : s.cons = .waiting ∨ s.cons = .gone) (he : e ≠ .begin true) :
    (step s e).sent = [] ∧ ((step s e).cons = .waiting ∨ (step s e).cons = .gone) := by
  cases e with
  | read =>
    simp only [step, read]
    split
    · split
      · exact ⟨hs, hw⟩
      · split <;> exact ⟨hs, hw⟩
    · exact ⟨hs, hw⟩
  | enc ok =>
    simp only [step, enc]
    split
    · split <;> exact ⟨hs, hw⟩
    · exact ⟨hs, hw⟩
  | push =>
    simp only [step, push]
    split
    · split
      · exact ⟨hs, hw⟩
      · split <;> exact ⟨hs, hw⟩
    · exact ⟨hs, hw⟩
  | stop d =>
    simp only [step, stop]
    split
    · exact ⟨hs, hw⟩
    · split <;> exact ⟨hs, hw⟩
  | begin ok =>
    simp only [step, begin]
    split
    · cases ok with
      | true => exact absurd rfl he
      | false => exact ⟨hs, .inr rfl⟩
    · exact ⟨hs, hw⟩
  | take => rcases hw with hw | hw <;> simp [step, take, hw, hs]
  | alert => rcases hw with hw | hw <;> simp [step, alert, hw, hs]
  | quit => rcases hw with hw | hw <;> simp [step, quit, hw, hs]

theorem wait_run : ∀ (es : List Event) (s : State), s.sent = [] →
    (s.cons = .waiting ∨ s.cons = .gone) → Event.begin true ∉ es → (run s es).sent = []
  | [], _, hs, _, _ => hs
  | e :: es, s, hs, hw, he => by
    have h := wait_step s e hs hw (fun h => he (by rw [h]; exact List.mem_cons_self))
    exact wait_run es (step s e) h.1 h.2 (fun h => he (List.mem_cons_of_mem _ h))

theorem accepted_run (es : List Event) (s : State) (hs : s.sent = []) (hw : s.cons = .waiting)
    (h : (run s es).sent ≠ []) : Event.begin true ∈ es :=
  Decidable.byContradiction fun hn => h (wait_run es s hs (.inl hw) hn)

end Verif.SendFile

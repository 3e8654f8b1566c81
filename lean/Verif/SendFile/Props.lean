import Verif.SendFile.Lemmas

/-! # Properties C230-C234 -/

namespace Verif.SendFile

/-! ## C230: what is sent is the source, cut as announced -/

/-- Whatever the source gives, whatever fails and whenever it is stopped: the groups that were sent
are the first pieces of the source, in order, with consecutive ids. -/
theorem C230_sent (data : Bytes) (len size first : Nat) (hs : 0 < size) (es : List Event)
    (i : Nat) (g : Group) (h : (run (start data len size first) es).sent[i]? = some g) :
    g.id = first + i ∧ g.bytes = piece data len size i := by
  have hi := inv_run es _ (inv_start data len size first hs)
  have ha := hi.all
  unfold all at ha
  rw [List.append_assoc] at ha
  have hp := gs_prefix ha
  rw [hp] at h
  simp only [gs, List.getElem?_map, Option.map_eq_some_iff] at h
  obtain ⟨j, hj, rfl⟩ := h
  have := List.getElem?_eq_some_iff.mp hj
  obtain ⟨_, hj⟩ := this
  rw [List.getElem_range] at hj
  subst hj
  exact ⟨rfl, rfl⟩

/-- Together they are the beginning of the source. -/
theorem C230_prefix (data : Bytes) (len size first : Nat) (hs : 0 < size) (es : List Event) :
    whole (run (start data len size first) es).sent <+: data.take len := by
  have hi := inv_run es _ (inv_start data len size first hs)
  have ha := hi.all
  unfold all at ha
  rw [List.append_assoc] at ha
  rw [gs_prefix ha, whole_gs]
  exact List.take_prefix _ _

/-- When nothing fails, the source is as long as it said and the loop came to its end, everything
was sent, in as many groups as were announced. -/
theorem C230_all (data : Bytes) (len size first : Nat) (hs : 0 < size) (hd : len ≤ data.length)
    (es : List Event) (he : ∀ e, e ∈ es → Smooth e)
    (h : Hooked (run (start data len size first) es)) :
    whole (run (start data len size first) es).sent = data.take len ∧
      (run (start data len size first) es).sent.length = (len + size - 1) / size := by
  have h0 := inv_start data len size first hs
  have hi := inv_run es _ h0
  have hg := good_run hd es _ h0
    ⟨fun _ => by simp [start, all, oks, Phase.held], fun _ hx => by simp [start] at hx,
      by simp [start, errs]⟩ he
  have hc : (run (start data len size first) es).cons = .closed := h
  have hn : (run (start data len size first) es).cons ≠ .gone := by rw [hc]; simp
  have hp := (hi.end' hc).1
  have hq := (hi.end' hc).2
  have hall : all (run (start data len size first) es) =
      (run (start data len size first) es).sent := by
    simp [all, hq, hp, oks, Phase.held]
  have hcount := hg.none hn
  have hfin := hg.fin hn hp
  have hcur := hi.cur
  have hlast := hi.last
  have ha := hi.all
  rw [hall] at ha hcount
  rw [hfin] at hcur
  generalize (run (start data len size first) es).rendered = r at *
  constructor
  · rw [ha, whole_gs, hcount]
    apply List.take_of_length_le
    rw [List.length_take]
    omega
  · rw [hcount]
    symm
    rcases hlast with h0 | h1
    · subst h0
      have : len = 0 := by omega
      subst this
      rw [Nat.zero_add]
      exact Nat.div_eq_of_lt (by omega)
    · have hle : len ≤ r * size := by omega
      rcases r with _ | r
      · simp at hle h1; omega
      · simp only [Nat.add_sub_cancel] at h1
        rw [Nat.add_mul, Nat.one_mul] at hle
        rw [Nat.div_eq_iff hs]
        rw [Nat.add_mul, Nat.one_mul]
        omega

/-- A transfer of three bytes in groups of two. -/
example : Hooked (run (start [1, 2, 3] 3 2 7)
      [.read, .enc true, .push, .begin true, .take, .read, .enc true, .push, .alert, .take, .read,
        .alert, .take]) ∧
    (run (start [1, 2, 3] 3 2 7)
      [.read, .enc true, .push, .begin true, .take, .read, .enc true, .push, .alert, .take, .read,
        .alert, .take]).sent = [⟨7, [1, 2]⟩, ⟨8, [3]⟩] := by
  unfold Hooked; decide

/-! ## C231: whoever sends a file learns when it was not sent wholly -/

/-- Refuted: a source shorter than it said is never reported, and never sent wholly. -/
theorem C231_counterexample_short (data : Bytes) (len size first : Nat) (hs : 0 < size)
    (hd : data.length < len) (es : List Event) (he : ∀ d, Event.stop d ∉ es) :
    (run (start data len size first) es).reports = 0 ∧
      (whole (run (start data len size first) es).sent).length < len := by
  constructor
  · have := tot_run es (start data len size first) he
    simp [tot, start, errs] at this
    simp [start]
    exact this.1
  · have h := (C230_prefix data len size first hs es).length_le
    rw [List.length_take] at h
    omega

/-- The same for a failure to encrypt, in whatever state: no report follows. -/
theorem C231_counterexample_enc (s : State) (b : Bytes) (hp : s.phase = .task b)
    (hr : s.reports = 0) (hq : Msg.err ∉ s.queue) (es : List Event) :
    (run s (.enc false :: es)).reports = 0 := by
  have h1 : (step s (.enc false)).phase = .done := by simp [step, enc, hp]
  have h2 := tot_done es _ h1
  rw [tot_step s (.enc false) (.inr (by simp))] at h2
  have h3 : errs s.queue = 0 := by
    clear h1 h2
    generalize s.queue = q at hq
    induction q with
    | nil => rfl
    | cons m q ih =>
      cases m with
      | ok g => exact ih fun h => hq (List.mem_cons_of_mem _ h)
      | err => exact absurd List.mem_cons_self hq
  show (run (step s (.enc false)) es).reports = 0
  unfold tot at h2
  omega

/-- And for a stopper that is dropped while the channel is full. -/
theorem C231_counterexample_full (s : State) (hl : s.queue.length = 5) (hr : s.reports = 0)
    (hq : Msg.err ∉ s.queue) (hp : s.phase ≠ .done) (es : List Event) :
    (run s (.stop true :: es)).reports = 0 := by
  have h1 : step s (.stop true) = { s with phase := .done } := by
    cases hx : s.phase with
    | done => exact absurd hx hp
    | reading => simp [step, stop, hx, hl]
    | task b => simp [step, stop, hx, hl]
    | holding g => simp [step, stop, hx, hl]
  have h3 : errs s.queue = 0 := by
    clear h1 hl
    generalize s.queue = q at hq
    induction q with
    | nil => rfl
    | cons m q ih =>
      cases m with
      | ok g => exact ih fun h => hq (List.mem_cons_of_mem _ h)
      | err => exact absurd List.mem_cons_self hq
  show (run (step s (.stop true)) es).reports = 0
  rw [h1]
  have h2 := tot_done es { s with phase := .done } rfl
  have h4 : tot { s with phase := .done } = 0 := by
    show s.reports + errs s.queue = 0
    omega
  rw [h4] at h2
  unfold tot at h2
  omega

/-- The channel does fill: six groups read, none taken. -/
example : ((run (start (List.replicate 9 1) 9 1 0)
    ((List.replicate 6 [Event.read, .enc true, .push]).flatten)).queue.length = 5) := by decide

/-- Partial: a stopper that is dropped while there is room and a listener is reported once, when
the loop comes to its end.  What is missing: shorter sources, failures to encrypt, a full
channel and stops that are asked for. -/
theorem C231_partial (s : State) (hl : s.queue.length < 5) (hc : s.cons.there = true)
    (hr : s.reports = 0) (hq : Msg.err ∉ s.queue) (hp : s.phase ≠ .done) (es : List Event)
    (hh : Hooked (run s (.stop true :: es))) : (run s (.stop true :: es)).reports = 1 := by
  have h1 : step s (.stop true) = { s with phase := .done, queue := s.queue ++ [.err] } := by
    cases hx : s.phase with
    | done => exact absurd hx hp
    | reading => simp [step, stop, hx, hl, hc]
    | task b => simp [step, stop, hx, hl, hc]
    | holding g => simp [step, stop, hx, hl, hc]
  have h3 : errs s.queue = 0 := by
    clear h1 hl hh
    generalize s.queue = q at hq
    induction q with
    | nil => rfl
    | cons m q ih =>
      cases m with
      | ok g => exact ih fun h => hq (List.mem_cons_of_mem _ h)
      | err => exact absurd List.mem_cons_self hq
  change Hooked (run (step s (.stop true)) es) at hh
  show (run (step s (.stop true)) es).reports = 1
  rw [h1] at hh ⊢
  have h2 := tot_done es { s with phase := .done, queue := s.queue ++ [.err] } rfl
  have h4 : tot { s with phase := .done, queue := s.queue ++ [.err] } = 1 := by
    show s.reports + errs (s.queue ++ [.err]) = 1
    rw [errs_append, h3, hr]
    rfl
  rw [h4] at h2
  have h5 := closed_empty es { s with phase := .done, queue := s.queue ++ [.err] }
    (fun h => by simp only at h; rw [h] at hc; cases hc) hh
  unfold tot at h2
  rw [h5] at h2
  simpa [errs] using h2

example : (run (start [1, 2] 2 1 0) [.begin true, .read, .stop true, .take, .take]).reports = 1 ∧
    Hooked (run (start [1, 2] 2 1 0) [.begin true, .read, .stop true, .take, .take]) := by
  unfold Hooked; decide

/-! ## C232: the hook is executed only when everything was sent -/

/-- Refuted, for every source that is not empty: a failure to encrypt its first group ends in the
hook, with nothing sent and nothing reported.  The hook deletes the file when it was to be
deleted on pull. -/
theorem C232_counterexample (data : Bytes) (len size first : Nat) (hl : 0 < len)
    (hd : min len size ≤ data.length) :
    let t := run (start data len size first) [.begin true, .read, .enc false, .take]
    Hooked t ∧ t.sent = [] ∧ t.reports = 0 := by
  have h0 : ¬ 0 = len := by omega
  have h1 : ¬ data.length < min len size := by omega
  simp [run, step, start, begin, read, enc, take, Hooked, h0, h1]

/-- The same for every source shorter than one group and than it said. -/
theorem C232_counterexample_short (data : Bytes) (len size first : Nat)
    (hd : data.length < min len size) :
    let t := run (start data len size first) [.begin true, .read, .take]
    Hooked t ∧ t.sent = [] ∧ t.reports = 0 := by
  have h0 : ¬ 0 = len := by omega
  simp [run, step, start, begin, read, take, Hooked, h0, hd]

/-- Partial: with an honest source, no failure and no stop, the hook finds everything sent.  What
is missing: failures and stops, after which it is executed all the same. -/
theorem C232_partial (data : Bytes) (len size first : Nat) (hs : 0 < size) (hd : len ≤ data.length)
    (es : List Event) (he : ∀ e, e ∈ es → Smooth e)
    (h : Hooked (run (start data len size first) es)) (i : Nat) (hi : i * size < len) :
    ∃ g, (run (start data len size first) es).sent[i]? = some g ∧
      g.bytes = piece data len size i := by
  have hall := C230_all data len size first hs hd es he h
  have hlt : i < (run (start data len size first) es).sent.length := by
    rw [hall.2, Nat.lt_div_iff_mul_lt hs]
    have : size * i = i * size := Nat.mul_comm _ _
    omega
  refine ⟨_, List.getElem?_eq_getElem hlt, ?_⟩
  exact (C230_sent data len size first hs es i _ (List.getElem?_eq_getElem hlt)).2

/-- The hook is not executed while anything that was made waits to be sent. -/
theorem C232_drained (data : Bytes) (len size first : Nat) (hs : 0 < size) (es : List Event)
    (h : Hooked (run (start data len size first) es)) :
    (run (start data len size first) es).phase = .done ∧
      (run (start data len size first) es).queue = [] :=
  (inv_run es _ (inv_start data len size first hs)).end' h

/-! ## C233: every size of groups is accepted or refused -/

/-- Refuted: a size of zero panics, for every source. -/
theorem C233_counterexample (data : Bytes) (len first : Nat) :
    «open» data len (some 0) first = .panic := by
  simp [«open», maxGroup]

/-- Partial: every other size is refused when it is above the maximum, and otherwise accepted, with
the least number of groups that hold the announced length.  What is missing: zero. -/
theorem C233_partial (data : Bytes) (len n first : Nat) (hn : n ≠ 0) :
    (maxGroup < n ∧ «open» data len (some n) first = .tooLarge) ∨
    (n ≤ maxGroup ∧ ∃ k, «open» data len (some n) first = .ok k (start data len n first) ∧
      len ≤ k * n ∧ ∀ k', len ≤ k' * n → k ≤ k') := by
  by_cases h : n > maxGroup
  · exact .inl ⟨h, by simp [«open», h]⟩
  · refine .inr ⟨by omega, (len + n - 1) / n, by simp [«open», h, hn, start], ?_, ?_⟩
    · have h1 := Nat.div_add_mod (len + n - 1) n
      have h2 := Nat.mod_lt (len + n - 1) (Nat.pos_of_ne_zero hn)
      rw [Nat.mul_comm] at h1
      omega
    · intro k' hk
      rw [← Nat.lt_succ_iff, Nat.div_lt_iff_lt_mul (Nat.pos_of_ne_zero hn), Nat.succ_mul]
      omega

/-- Without a size it never panics. -/
theorem C233_default (data : Bytes) (len first : Nat) :
    ∃ k, «open» data len none first = .ok k (start data len 3145728 first) ∧
      len ≤ k * 3145728 ∧ ∀ k', len ≤ k' * 3145728 → k ≤ k' := by
  have h0 : «open» data len none first = «open» data len (some 3145728) first := rfl
  rcases C233_partial data len 3145728 first (by decide) with h | h
  · exact absurd h.1 (by decide)
  · rw [h0]; exact h.2

example : ∃ k, «open» [1, 2, 3] 3 (some 2) 7 = .ok k (start [1, 2, 3] 3 2 7) := by
  rcases C233_partial [1, 2, 3] 3 2 7 (by decide) with h | h
  · exact absurd h.1 (by decide)
  · obtain ⟨_, k, hk, _⟩ := h; exact ⟨k, hk⟩

/-! ## C234: a source is read no faster than the receiver asks -/

/-- Never more than six groups are read ahead of what was sent. -/
theorem C234_ahead (data : Bytes) (len size first : Nat) (hs : 0 < size) (es : List Event) :
    data.length - (run (start data len size first) es).rest.length ≤
      ((run (start data len size first) es).sent.length + 6) * size := by
  have hi := inv_run es _ (inv_start data len size first hs)
  have ha := ahead_run (data := data) (size := size) es (start data len size first)
    ⟨rfl, by simp [start]⟩
  have h1 := ha.2
  have h2 := oks_length (run (start data len size first) es).queue
  have h3 := hi.room
  have h4 := busy_le (run (start data len size first) es).phase
  have h5 : (run (start data len size first) es).sent.length +
      (oks (run (start data len size first) es).queue).length +
      (run (start data len size first) es).phase.busy ≤
      (run (start data len size first) es).sent.length + 6 := by omega
  have h6 := Nat.mul_le_mul_right size h5
  omega

/-- No group is sent before the receiver has accepted, and one at most for each time it asked for
the next. -/
theorem C234_asked (data : Bytes) (len size first : Nat) (es : List Event) :
    (run (start data len size first) es).sent.length ≤ alerts es + 1 := by
  have := asked_run es (start data len size first)
  simp [asked, start] at this
  simp [start]
  omega

theorem C234_accepted (data : Bytes) (len size first : Nat) (es : List Event)
    (h : (run (start data len size first) es).sent ≠ []) : Event.begin true ∈ es :=
  accepted_run es _ rfl rfl h

/-- What was read is what was sent, what is in hand and no more of the source than that: the
source is read from its beginning. -/
theorem C234_reads (data : Bytes) (len size first : Nat) (hs : 0 < size) (es : List Event)
    (h : (run (start data len size first) es).phase ≠ .done) :
    ∃ n, (run (start data len size first) es).rest = data.drop n ∧ n ≤ len := by
  have hi := inv_run es _ (inv_start data len size first hs)
  refine ⟨_, hi.rest h, ?_⟩
  have h1 := hi.cur
  cases hp : (run (start data len size first) es).phase with
  | task b =>
    have := (hi.task b hp).2.1
    simp only [Phase.bytes]
    omega
  | reading => simp only [Phase.bytes, List.length_nil]; omega
  | holding g => simp only [Phase.bytes, List.length_nil]; omega
  | done => exact absurd hp h

/-- Six groups ahead are reached. -/
example : (run (start (List.replicate 9 1) 9 1 0)
    ((List.replicate 6 [Event.read, .enc true, .push]).flatten)).rest.length = 3 := by decide

/-- Only a stopper that is dropped is reported: whoever uses it, or lets the transfer end, is not
told of an error. -/
theorem C231_quiet (data : Bytes) (len size first : Nat) (es : List Event)
    (h : Event.stop true ∉ es) : (run (start data len size first) es).reports = 0 := by
  have key : ∀ (es : List Event) (s : State), Event.stop true ∉ es → Msg.err ∉ s.queue →
      s.reports = 0 → (run s es).reports = 0 := by
    intro es
    induction es with
    | nil => intro s _ _ h; exact h
    | cons e es ih =>
      intro s hn hq hr
      refine ih (step s e) (fun hm => hn (List.mem_cons_of_mem _ hm)) ?_ ?_ <;>
        cases e <;> simp only [step, read, enc, push, stop, begin, take, alert, quit]
      all_goals (repeat' split)
      all_goals simp_all
  exact key es _ h (by simp [start]) rfl

/-- Once nobody listens, nothing is put in the channel, and at most one more group is read. -/
theorem C234_gone (s : State) (hc : s.cons = .gone) (es : List Event) :
    (run s es).queue = s.queue ∧ (run s es).sent = s.sent ∧
      s.rest.length ≤ (run s es).rest.length + s.size := by
  have key : ∀ (es : List Event) (t : State), t.cons = .gone → t.size = s.size →
      t.queue = s.queue → t.sent = s.sent → s.rest.length ≤ t.rest.length + s.size →
      (t.phase = .reading → s.rest.length ≤ t.rest.length) →
      (run t es).queue = s.queue ∧ (run t es).sent = s.sent ∧
        s.rest.length ≤ (run t es).rest.length + s.size := by
    intro es
    induction es with
    | nil => intro t _ _ h1 h2 h3 _; exact ⟨h1, h2, h3⟩
    | cons e es ih =>
      intro t hc hz hq hs hr hp
      refine ih (step t e) ?_ ?_ ?_ ?_ ?_ ?_ <;> cases e <;>
        simp only [step, read, enc, push, stop, begin, take, alert, quit, hc, Cons.there]
      all_goals (repeat' split)
      all_goals simp_all
      all_goals omega
  refine key es s hc rfl rfl rfl ?_ ?_
  · omega
  · intro _; exact Nat.le_refl _

example : let s := run (start [1, 2, 3, 4, 5, 6] 6 2 0) [.read, .enc true, .push, .quit]
    s.cons = .gone ∧ (run s [.read, .enc true, .push, .read]).rest = [5, 6] := by decide

end Verif.SendFile

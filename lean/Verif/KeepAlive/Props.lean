import Verif.KeepAlive.Model
/-! Properties C136 and C137. -/
namespace Verif.KeepAlive

theorem setEnd_same (f : Side → End) (p : Side) (e : End) : setEnd f p e p = e := by simp [setEnd]

theorem setEnd_other {f : Side → End} {p q : Side} (e : End) (h : q ≠ p) : setEnd f p e q = f q := by
  simp [setEnd, h]

/-- Both ends, given one by one. -/
def both (x y : End) : Side → End := fun p => match p with
  | .client => x
  | .server => y

theorem both_client (x y : End) : both x y .client = x := rfl
theorem both_server (x y : End) : both x y .server = y := rfl

theorem both_const (x : End) : (fun _ => x) = both x x := by
  funext p; cases p <;> rfl

theorem setEnd_client (x y z : End) : setEnd (both x y) .client z = both z y := by
  funext p; cases p <;> rfl

theorem setEnd_server (x y z : End) : setEnd (both x y) .server z = both x z := by
  funext p; cases p <;> rfl

theorem run_append (c : Cfg) : ∀ (as bs : List Act) (s : St), run c s (as ++ bs) = run c (run c s as) bs := by
  intro as
  induction as with
  | nil => intro _ _; rfl
  | cons a as ih => intro bs s; exact ih bs _

/-! ### C137: an end that is alive is not dropped -/

/-- Lower bound for the keep alive that an end has noted: it came at time `x` or later. -/
def Noted (c : Cfg) (s : St) (p : Side) (x : Int) : Prop := ∀ l, (s.ends p).lastKa = some l → x + c.off p ≤ l

structure Good (c : Cfg) (s : St) : Prop where
  alive : ∀ p, (s.ends p).ended = false
  tok : (∃ p ts sent, s.tok = .flight p ts sent ∧ sent ≤ s.now ∧ s.now ≤ sent + c.lat ∧
          sent - c.jit ≤ ts - c.off p.other ∧ ts - c.off p.other ≤ sent ∧
          Noted c s p (sent - 2 * interval - 2 * c.jit - c.lat) ∧ Noted c s p.other (sent - interval - c.jit)) ∨
        (∃ p due, s.tok = .held p (due + c.off p) due ∧ s.now ≤ due + c.jit ∧ due ≤ s.now + interval ∧
          Noted c s p (due - interval) ∧ Noted c s p.other (due - 2 * interval - c.jit - c.lat))

/-- An end or the network fails. -/
def Act.isFault : Act → Bool
  | .die _ => true
  | .lose => true
  | _ => false

theorem other_other (p : Side) : p.other.other = p := by cases p <;> rfl

theorem other_ne (p : Side) : p.other ≠ p := by cases p <;> simp [Side.other]

theorem side_cases (p q : Side) : q = p ∨ q = p.other := by
  cases p <;> cases q <;> simp [Side.other]

theorem good_step {c : Cfg} {s : St} (hlat : 0 ≤ c.lat) (hjit : 0 ≤ c.jit) (ht : c.timeout ≠ 0)
    (hgap : 2 * interval + 2 * c.lat + 2 * c.jit ≤ c.timeout)
    (hskew : ∀ p : Side, c.off p - c.off p.other + c.lat + c.jit ≤ c.timeout)
    (h : Good c s) (a : Act) (ha : a.isFault = false) : Good c (step c s a) := by
  obtain ⟨halive, htok⟩ := h
  have hI : (0 : Int) < interval := by decide
  cases a with
  | die p => cases ha
  | lose => cases ha
  | activity p =>
    have hl : ∀ q, ((step c s (.activity p)).ends q).lastKa = (s.ends q).lastKa := by
      intro q
      simp only [step, setEnd]
      split
      · rename_i hq; rw [hq]
      · rfl
    have hn : ∀ q x, Noted c s q x → Noted c (step c s (.activity p)) q x := by
      intro q x h l hl'
      rw [hl] at hl'
      exact h l hl'
    refine ⟨?_, ?_⟩
    · intro q
      simp only [step, setEnd]
      split
      · exact halive p
      · exact halive q
    · rcases htok with ⟨q, ts, sent, h1, h2, h3, h4, h5, h6, h7⟩ | ⟨q, due, h1, h2, h3, h4, h5⟩
      · exact Or.inl ⟨q, ts, sent, h1, h2, h3, h4, h5, hn _ _ h6, hn _ _ h7⟩
      · exact Or.inr ⟨q, due, h1, h2, h3, hn _ _ h4, hn _ _ h5⟩
  | tick d =>
    simp only [step]
    split
    · rename_i hin
      refine ⟨halive, ?_⟩
      rcases htok with ⟨q, ts, sent, h1, h2, h3, h4, h5, h6, h7⟩ | ⟨q, due, h1, h2, h3, h4, h5⟩
      · refine Or.inl ⟨q, ts, sent, h1, ?_, ?_, h4, h5, h6, h7⟩
        · show sent ≤ s.now + d
          omega
        · simp only [inTime, h1, Bool.and_eq_true, decide_eq_true_eq] at hin
          exact hin.1.1
      · refine Or.inr ⟨q, due, h1, ?_, ?_, h4, h5⟩
        · simp only [inTime, h1, Bool.and_eq_true, decide_eq_true_eq] at hin
          exact hin.1.1
        · show due ≤ s.now + d + interval
          omega
    · exact ⟨halive, htok⟩
  | send =>
    rcases htok with ⟨q, ts, sent, h1, h2, h3, h4, h5, h6, h7⟩ | ⟨q, due, h1, h2, h3, h4, h5⟩
    · have : step c s .send = s := by simp only [step, h1]
      rw [this]
      exact ⟨halive, Or.inl ⟨q, ts, sent, h1, h2, h3, h4, h5, h6, h7⟩⟩
    · by_cases hd : s.now < due
      · have : step c s .send = s := by simp only [step, h1, hd, if_true]
        rw [this]
        exact ⟨halive, Or.inr ⟨q, due, h1, h2, h3, h4, h5⟩⟩
      · have : step c s .send = { s with tok := .flight q.other (due + c.off q) s.now } := by
          simp only [step, h1, hd, if_false, halive q, Bool.false_eq_true]
        rw [this]
        refine ⟨halive, Or.inl ⟨q.other, due + c.off q, s.now, rfl, Int.le_refl _, ?_, ?_, ?_, ?_, ?_⟩⟩
        · show s.now ≤ s.now + c.lat
          omega
        · rw [other_other]; omega
        · rw [other_other]; omega
        · intro l hl
          have := h5 l hl
          omega
        · rw [other_other]
          intro l hl
          have := h4 l hl
          omega
  | check p =>
    have hno : checkEnds c.timeout (s.ends p) (s.now + c.off p) s.now = false := by
      have hto : timedOut c.timeout (s.ends p) (s.now + c.off p) = false := by
        unfold timedOut
        cases hl : (s.ends p).lastKa with
        | none => rfl
        | some l =>
          simp only [decide_eq_false_iff_not, Int.not_lt, gt_iff_lt]
          rcases htok with ⟨q, ts, sent, h1, h2, h3, h4, h5, h6, h7⟩ | ⟨q, due, h1, h2, h3, h4, h5⟩
          · rcases side_cases q p with rfl | rfl
            · have := h6 l hl; omega
            · have := h7 l hl; omega
          · rcases side_cases q p with rfl | rfl
            · have := h4 l hl; omega
            · have := h5 l hl; omega
      unfold checkEnds
      simp [hto]
    simp only [step]
    split
    · exact ⟨halive, htok⟩
    · rw [hno]
      simp only [Bool.false_eq_true, if_false]
      have hl : ∀ q, (setEnd s.ends p { s.ends p with nextCheck := s.now + interval } q).lastKa = (s.ends q).lastKa := by
        intro q
        simp only [setEnd]
        split
        · rename_i hq; rw [hq]
        · rfl
      have hn : ∀ q x, Noted c s q x →
          Noted c { s with ends := setEnd s.ends p { s.ends p with nextCheck := s.now + interval } } q x := by
        intro q x h l hl'
        rw [hl] at hl'
        exact h l hl'
      refine ⟨?_, ?_⟩
      · intro q
        simp only [setEnd]
        split
        · exact halive p
        · exact halive q
      · rcases htok with ⟨q, ts, sent, h1, h2, h3, h4, h5, h6, h7⟩ | ⟨q, due, h1, h2, h3, h4, h5⟩
        · exact Or.inl ⟨q, ts, sent, h1, h2, h3, h4, h5, hn _ _ h6, hn _ _ h7⟩
        · exact Or.inr ⟨q, due, h1, h2, h3, hn _ _ h4, hn _ _ h5⟩
  | deliver =>
    rcases htok with ⟨q, ts, sent, h1, h2, h3, h4, h5, h6, h7⟩ | ⟨q, due, h1, h2, h3, h4, h5⟩
    · have hs1 := hskew q
      have hs2 := hskew q.other
      rw [other_other] at hs2
      have hka : ∃ l, s.now + c.off q ≤ l ∧
          onKeepAlive c.timeout (s.ends q) ts (s.now + c.off q) (metaExpired (s.ends q) s.now) =
            (true, { s.ends q with lastKa := some l }) := by
        unfold onKeepAlive
        simp only [ht, if_false]
        by_cases hneg : s.now + c.off q - ts < 0
        · refine ⟨ts, by omega, ?_⟩
          have : s.now + c.off q - (s.now + c.off q - ts) = ts := by omega
          simp only [hneg, if_true, this]
          have hle : ¬ (-(s.now + c.off q - ts) > c.timeout) := by omega
          cases (s.ends q).lastKa <;> simp [hle]
        · refine ⟨s.now + c.off q, Int.le_refl _, ?_⟩
          simp only [hneg, if_false]
          have hle : ¬ (s.now + c.off q - ts > c.timeout) := by omega
          cases (s.ends q).lastKa <;> simp [hle]
      obtain ⟨l, hl, hka⟩ := hka
      have : step c s .deliver = { s with
          ends := setEnd s.ends q { s.ends q with lastKa := some l }
          tok := .held q (s.now + c.off q + interval) (s.now + interval) } := by
        simp only [step, h1, halive q, Bool.false_eq_true, if_false, hka, Bool.true_or, if_true]
      rw [this]
      refine ⟨?_, Or.inr ⟨q, s.now + interval, ?_, ?_, ?_, ?_, ?_⟩⟩
      · intro p
        simp only [setEnd]
        split
        · exact halive q
        · exact halive p
      · show Tok.held q (s.now + c.off q + interval) (s.now + interval) = _
        congr 1
        omega
      · show s.now ≤ s.now + interval + c.jit
        omega
      · exact Int.le_refl _
      · intro l' hl'
        simp only [setEnd_same, Option.some.injEq] at hl'
        omega
      · intro l' hl'
        simp only [setEnd_other _ (other_ne q)] at hl'
        have := h7 l' hl'
        omega
    · have : step c s .deliver = s := by simp only [step, h1]
      rw [this]
      exact ⟨halive, Or.inr ⟨q, due, h1, h2, h3, h4, h5⟩⟩

theorem good_start {c : Cfg} (hlat : 0 ≤ c.lat) (hjit : 0 ≤ c.jit) (ht : c.timeout ≠ 0) (valid check : Side → Int) :
    Good c (start c valid check) := by
  refine ⟨fun p => rfl, Or.inl ⟨.server, c.off .client, 0, ?_, Int.le_refl _, ?_, ?_, ?_, ?_, ?_⟩⟩
  · simp [start, ht]
  · show (0 : Int) ≤ 0 + c.lat
    omega
  · show (0 : Int) - c.jit ≤ c.off .client - c.off .client
    omega
  · show c.off .client - c.off .client ≤ 0
    omega
  · intro l hl; cases hl
  · intro l hl; cases hl

/-- If neither end dies and the network is not cut, the packets arrive within `lat`, the tasks run within `jit`, the timeout is at least two
intervals and two round trips of this and the difference of the clocks (with `lat` and `jit`) is not more than the
timeout, then no end ends the session, however long and however idle it is. Missing: timeouts below half an hour
and clocks that differ by more (see the counterexamples). -/
theorem C137_live_kept_partial (c : Cfg) (hlat : 0 ≤ c.lat) (hjit : 0 ≤ c.jit)
    (hgap : 2 * interval + 2 * c.lat + 2 * c.jit ≤ c.timeout)
    (hskew : ∀ p : Side, c.off p - c.off p.other + c.lat + c.jit ≤ c.timeout)
    (valid check : Side → Int) (acts : List Act) (hd : ∀ a ∈ acts, a.isFault = false) :
    ∀ p, ((run c (start c valid check) acts).ends p).ended = false := by
  have ht : c.timeout ≠ 0 := by
    have : (0 : Int) < interval := by decide
    omega
  have : ∀ (as : List Act) (s : St), Good c s → (∀ a ∈ as, a.isFault = false) → Good c (run c s as) := by
    intro as
    induction as with
    | nil => intro s h _; exact h
    | cons a as ih =>
      intro s h hd
      exact ih _ (good_step hlat hjit ht hgap hskew h a (hd a (List.mem_cons_self ..)))
        (fun b hb => hd b (List.mem_cons_of_mem _ hb))
  exact (this acts _ (good_start hlat hjit ht valid check) hd).alive

/-- With the default timeout of 45 minutes: packets and tasks that take less than 7 minutes together and clocks that
differ by half an hour at most. -/
example (off : Side → Int) (h : ∀ p : Side, off p - off p.other ≤ 30 * 60 * 1000000000) :
    let c : Cfg := ⟨timeoutOf none, off, 6 * 60 * 1000000000, 60 * 1000000000⟩
    0 ≤ c.lat ∧ 0 ≤ c.jit ∧ 2 * interval + 2 * c.lat + 2 * c.jit ≤ c.timeout ∧
      ∀ p : Side, c.off p - c.off p.other + c.lat + c.jit ≤ c.timeout := by
  refine ⟨by show (0 : Int) ≤ 6 * 60 * 1000000000; decide, by show (0 : Int) ≤ 60 * 1000000000; decide,
    by show 2 * interval + 2 * (6 * 60 * 1000000000) + 2 * (60 * 1000000000) ≤ defaultTimeout; decide, ?_⟩
  intro p
  have := h p
  simp only [timeoutOf, defaultTimeout, interval]
  omega

/-- One minute of network time. -/
def minute : Int := 60 * 1000000000

/-- The first hour of an idle session, with the packet under way for a second. -/
def idleHour : List Act :=
  [.tick 1000000000, .deliver, .tick 899000000000, .check .client, .check .server, .tick 1000000000, .send,
   .tick 1000000000, .deliver, .tick 898000000000, .check .client, .check .server, .tick 2000000000, .send,
   .tick 1000000000, .deliver]

example :
    let c : Cfg := ⟨defaultTimeout, fun _ => 0, 2000000000, 2000000000⟩
    let s := run c (start c (fun _ => 0) (fun _ => interval)) idleHour
    (s.ends .client).lastKa = some 902000000000 ∧ (s.ends .server).lastKa = some 1803000000000 ∧
      s.now = 1803000000000 := by
  decide

/-- Whatever timeout below fifteen minutes a caller chooses (0 excepted, which switches the keep alives off): on a
perfect network, with equal clocks and both ends alive, an idle session is ended by the server after a quarter of
an hour. -/
theorem C137_counterexample_short_timeout (timeout : Int) (h0 : timeout ≠ 0) (h : timeout < interval) :
    let c : Cfg := ⟨timeout, fun _ => 0, 0, 0⟩
    ((run c (start c (fun _ => 0) (fun _ => interval)) [.deliver, .tick 900000000000, .check .server]).ends
      .server).ended = true := by
  have hi : interval = 900000000000 := by decide
  have hm : metaExpire = 60000000000 := by decide
  rw [hi] at h
  simp [run, start, step, h0, onKeepAlive, inTime, setEnd, checkEnds, timedOut, metaExpired, hi, hm, h]

/-- Ten seconds; a caller who wants no limit at all and passes `Duration::MAX` gets a negative timeout. -/
example : timeoutOf (some 10) = 10000000000 ∧ timeoutOf (some (2 ^ 64 - 1)) = -1000000000 := by decide

/-- For every timeout of at least half an hour: if the clock of the client is ahead of or behind that of the server
by more than the timeout, the second keep alive that reaches the server ends an idle session, although the network
is perfect and both ends are alive. -/
theorem C137_counterexample_clocks (timeout diff : Int) (h : 2 * interval ≤ timeout)
    (hd : timeout < diff ∨ diff < -timeout) :
    let c : Cfg := ⟨timeout, fun p => if p = .client then diff else 0, 0, 0⟩
    ((run c (start c (fun _ => 0) (fun _ => interval))
      [.deliver, .tick 900000000000, .check .client, .check .server, .send, .deliver, .tick 900000000000,
       .check .client, .check .server, .send, .deliver]).ends .server).ended = true := by
  have hi : interval = 900000000000 := by decide
  have hm : metaExpire = 60000000000 := by decide
  rw [hi] at h
  have h0 : timeout ≠ 0 := by omega
  intro c
  have hoc : c.off .client = diff := rfl
  have hos : c.off .server = 0 := rfl
  have hto : c.timeout = timeout := rfl
  have hjit : c.jit = 0 := rfl
  -- the first packet at the server
  have h1 : ∃ l, 0 ≤ l ∧ step c (start c (fun _ => 0) (fun _ => interval)) .deliver =
      ⟨0, both ⟨none, 0, 900000000000, false⟩ ⟨some l, 0, 900000000000, false⟩, .held .server 900000000000 900000000000⟩ := by
    have hs : start c (fun _ => 0) (fun _ => interval) =
        ⟨0, both ⟨none, 0, 900000000000, false⟩ ⟨none, 0, 900000000000, false⟩, .flight .server diff 0⟩ := by
      simp only [start, hto, h0, if_false, hoc, hi, both_const]
    rw [hs]
    by_cases hneg : 0 - diff < 0
    · exact ⟨diff, by omega, by
        simp [step, both_server, hos, hto, h0, onKeepAlive, setEnd_server, hi, metaExpired, hm, show 0 < diff by omega]⟩
    · exact ⟨0, by omega, by
        simp [step, both_server, hos, hto, h0, onKeepAlive, setEnd_server, hi, metaExpired, hm, show ¬ 0 < diff by omega]⟩
  obtain ⟨l, hl, h1⟩ := h1
  have h2 : run c ⟨0, both ⟨none, 0, 900000000000, false⟩ ⟨some l, 0, 900000000000, false⟩,
        .held .server 900000000000 900000000000⟩ [.tick 900000000000, .check .client, .check .server, .send] =
      ⟨900000000000, both ⟨none, 0, 1800000000000, false⟩ ⟨some l, 0, 1800000000000, false⟩,
        .flight .client 900000000000 900000000000⟩ := by
    have : ¬ (timeout < 900000000000 - l) := by omega
    simp [run, step, inTime, both_client, both_server, hos, hto, h0, hjit, checkEnds, timedOut, setEnd_client,
      setEnd_server, hi, this, Side.other]
  have h3 : ∃ l', 900000000000 + diff ≤ l' ∧ step c ⟨900000000000, both ⟨none, 0, 1800000000000, false⟩ ⟨some l, 0, 1800000000000, false⟩,
        .flight .client 900000000000 900000000000⟩ .deliver =
      ⟨900000000000, both ⟨some l', 0, 1800000000000, false⟩ ⟨some l, 0, 1800000000000, false⟩,
        .held .client (900000000000 + diff + 900000000000) 1800000000000⟩ := by
    by_cases hneg : diff < 0
    · exact ⟨900000000000, by omega, by
        simp [step, both_client, hoc, hto, h0, onKeepAlive, setEnd_client, hi,
          show (900000000000 + diff - 900000000000 < 0) by omega,
          show 900000000000 + diff - (900000000000 + diff - 900000000000) = 900000000000 by omega]⟩
    · exact ⟨900000000000 + diff, by omega, by
        simp [step, both_client, hoc, hto, h0, onKeepAlive, setEnd_client, hi,
          show ¬ (900000000000 + diff - 900000000000 < 0) by omega]⟩
  obtain ⟨l', hl', h3⟩ := h3
  have h4 : run c ⟨900000000000, both ⟨some l', 0, 1800000000000, false⟩ ⟨some l, 0, 1800000000000, false⟩,
        .held .client (900000000000 + diff + 900000000000) 1800000000000⟩
        [.tick 900000000000, .check .client, .check .server, .send] =
      ⟨1800000000000, both ⟨some l', 0, 2700000000000, false⟩ ⟨some l, 0, 2700000000000, false⟩,
        .flight .server (900000000000 + diff + 900000000000) 1800000000000⟩ := by
    have e1 : ¬ (timeout < 1800000000000 + diff - l') := by omega
    have e2 : ¬ (timeout < 1800000000000 - l) := by omega
    simp [run, step, inTime, both_client, both_server, hos, hoc, hto, h0, hjit, checkEnds, timedOut, setEnd_client,
      setEnd_server, hi, e1, e2, Side.other]
  have h5 : ((step c ⟨1800000000000, both ⟨some l', 0, 2700000000000, false⟩ ⟨some l, 0, 2700000000000, false⟩,
        .flight .server (900000000000 + diff + 900000000000) 1800000000000⟩ .deliver).ends .server).ended = true := by
    have : timeout < (if 1800000000000 - (900000000000 + diff + 900000000000) < 0
        then -(1800000000000 - (900000000000 + diff + 900000000000))
        else 1800000000000 - (900000000000 + diff + 900000000000)) := by
      split <;> omega
    simp only [step, both_server, hos, hto, onKeepAlive, h0, if_false, metaExpired, hm, Int.add_zero, gt_iff_lt, this,
      if_true, setEnd_server]
    simp [both_server]
  show ((run c (step c (start c (fun _ => 0) (fun _ => interval)) .deliver)
    ([.tick 900000000000, .check .client, .check .server, .send] ++ .deliver ::
      ([.tick 900000000000, .check .client, .check .server, .send] ++ [.deliver]))).ends .server).ended = true
  rw [h1, run_append, h2]
  show ((run c (step c _ .deliver)
      ([.tick 900000000000, .check .client, .check .server, .send] ++ [.deliver])).ends .server).ended = true
  rw [h3, run_append, h4]
  exact h5

/-! ### C136: an end that is gone is noticed -/

/-- Nothing arrives at `p`. -/
def Silent (p : Side) (c : Cfg) : St → List Act → Prop
  | _, [] => True
  | s, a :: as =>
    (match a with
      | .deliver => ∀ ts sent, s.tok ≠ .flight p ts sent
      | .activity q => q ≠ p
      | _ => True) ∧ Silent p c (step c s a) as


/-- What stays true of an end at which nothing arrives after time `t0`. -/
def Waiting (c : Cfg) (p : Side) (l lv b : Int) (s : St) : Prop :=
  (s.ends p).ended = true ∨
    ((s.ends p).lastKa = some l ∧ (s.ends p).lastValid = lv ∧ (s.ends p).nextCheck ≤ b ∧
      s.now ≤ (s.ends p).nextCheck + c.jit)

theorem setEnd_get (f : Side → End) (p q : Side) (e : End) : setEnd f p e q = if q = p then e else f q := rfl

theorem waiting_step {c : Cfg} {p : Side} {l lv b : Int} {s : St} (ht : c.timeout ≠ 0) (hjit : 0 ≤ c.jit)
    (hb1 : l - c.off p + c.timeout + interval ≤ b) (hb2 : lv + metaExpire + interval ≤ b)
    (h : Waiting c p l lv b s) (a : Act)
    (hs : match a with
      | .deliver => ∀ ts sent, s.tok ≠ .flight p ts sent
      | .activity q => q ≠ p
      | _ => True) : Waiting c p l lv b (step c s a) := by
  have hI : (0 : Int) < interval := by decide
  have same : ∀ s' : St, s'.ends p = s.ends p → s'.now = s.now → Waiting c p l lv b s' := by
    intro s' h1 h2
    unfold Waiting
    rw [h1, h2]
    exact h
  cases a with
  | tick d =>
    simp only [step]
    split
    · rename_i hin
      rcases h with h | ⟨h1, h2, h3, h4⟩
      · exact Or.inl h
      · by_cases he : (s.ends p).ended = true
        · exact Or.inl he
        · refine Or.inr ⟨h1, h2, h3, ?_⟩
          simp only [inTime, Bool.and_eq_true, Bool.or_eq_true, decide_eq_true_eq] at hin
          cases p
          · rcases hin.1.2 with hx | hx
            · exact absurd hx he
            · exact hx
          · rcases hin.2 with hx | hx
            · exact absurd hx he
            · exact hx
    · exact h
  | lose =>
    simp only [step]
    split
    · exact same _ rfl rfl
    · exact h
  | die q =>
    simp only [step]
    by_cases hq : p = q
    · subst hq
      left
      simp [setEnd]
    · exact same _ (by simp [setEnd, hq]) rfl
  | activity q =>
    exact same _ (by simp [step, setEnd, Ne.symm hs]) rfl
  | send =>
    simp only [step]
    split
    · split
      · exact h
      · split
        · exact same _ rfl rfl
        · exact same _ rfl rfl
    · exact h
  | deliver =>
    simp only [step]
    split
    · rename_i q ts sent htok
      have hq : ¬ p = q := by
        rintro rfl
        exact hs ts sent htok
      split
      · exact same _ rfl rfl
      · split
        · exact same _ (by simp [setEnd, hq]) rfl
        · exact same _ (by simp [setEnd, hq]) rfl
    · exact h
  | check q =>
    simp only [step]
    split
    · exact h
    · rename_i hdue
      by_cases hq : p = q
      · subst hq
        split
        · left
          simp [setEnd]
        · rename_i hne
          rcases h with h | ⟨h1, h2, h3, h4⟩
          · simp [h] at hdue
          · right
            simp only [setEnd_same]
            refine ⟨h1, h2, ?_, ?_⟩
            · simp only [checkEnds, ht, ne_eq, not_false_eq_true, if_true, timedOut, h1, metaExpired, h2,
                Bool.and_eq_true, decide_eq_true_eq, not_and] at hne
              by_cases hx : s.now + c.off p - l > c.timeout
              · have := hne hx
                omega
              · omega
            · omega
      · split
        · exact same _ (by simp [setEnd, hq]) rfl
        · exact same _ (by simp [setEnd, hq]) rfl

theorem waiting_run {c : Cfg} {p : Side} {l lv b : Int} (ht : c.timeout ≠ 0) (hjit : 0 ≤ c.jit)
    (hb1 : l - c.off p + c.timeout + interval ≤ b) (hb2 : lv + metaExpire + interval ≤ b) :
    ∀ (as : List Act) (s : St), Waiting c p l lv b s → Silent p c s as → Waiting c p l lv b (run c s as) := by
  intro as
  induction as with
  | nil => intro s h _; exact h
  | cons a as ih =>
    intro s h hs
    exact ih _ (waiting_step ht hjit hb1 hb2 h a hs.1) hs.2

/-- Upper bounds: nothing in the state lies further in the future than the difference `d` of the clocks. -/
structure Upper (c : Cfg) (d : Int) (s : St) : Prop where
  ka : ∀ p l, (s.ends p).lastKa = some l → l - c.off p ≤ s.now + d
  valid : ∀ p, (s.ends p).lastValid ≤ s.now
  next : ∀ p, (s.ends p).nextCheck ≤ s.now + interval
  soon : ∀ p, (s.ends p).ended = false → s.now ≤ (s.ends p).nextCheck + c.jit
  tok : match s.tok with
    | .flight p ts sent => ts - c.off p.other ≤ sent ∧ sent ≤ s.now
    | .held p ts due => ts = due + c.off p
    | .gone => True

theorem upper_step {c : Cfg} {d : Int} {s : St} (hjit : 0 ≤ c.jit) (h0 : 0 ≤ d)
    (hd : ∀ p : Side, c.off p.other - c.off p ≤ d) (h : Upper c d s) (a : Act) : Upper c d (step c s a) := by
  have hI : (0 : Int) < interval := by decide
  obtain ⟨h1, h2, h3, h4, h5⟩ := h
  cases a with
  | tick n =>
    simp only [step]
    split
    · rename_i hin
      refine ⟨?_, ?_, ?_, ?_, ?_⟩
      · intro p l hl
        have := h1 p l hl
        show l - c.off p ≤ s.now + n + d
        omega
      · intro p
        have := h2 p
        show (s.ends p).lastValid ≤ s.now + n
        omega
      · intro p
        have := h3 p
        show (s.ends p).nextCheck ≤ s.now + n + interval
        omega
      · intro p he
        simp only [inTime, Bool.and_eq_true, Bool.or_eq_true, decide_eq_true_eq] at hin
        simp only at he
        cases p
        · rcases hin.1.2 with hx | hx
          · rw [he] at hx; cases hx
          · exact hx
        · rcases hin.2 with hx | hx
          · rw [he] at hx; cases hx
          · exact hx
      · show (match s.tok with
          | .flight p ts sent => ts - c.off p.other ≤ sent ∧ sent ≤ s.now + n
          | .held p ts due => ts = due + c.off p
          | .gone => True)
        cases htok : s.tok with
        | flight p ts sent =>
          rw [htok] at h5
          exact ⟨h5.1, by have := h5.2; omega⟩
        | held p ts due =>
          rw [htok] at h5
          exact h5
        | gone => trivial
    · exact ⟨h1, h2, h3, h4, h5⟩
  | lose =>
    simp only [step]
    split
    · exact ⟨h1, h2, h3, h4, trivial⟩
    · exact ⟨h1, h2, h3, h4, h5⟩
  | die q =>
    simp only [step]
    refine ⟨?_, ?_, ?_, ?_, h5⟩ <;> intro p
    all_goals simp only [setEnd_get]
    all_goals split
    all_goals first
      | (rename_i hq; subst hq; simp only; first | exact h1 p | exact h2 p | exact h3 p | (intro hx; cases hx))
      | first | exact h1 p | exact h2 p | exact h3 p | exact h4 p
  | activity q =>
    simp only [step]
    refine ⟨?_, ?_, ?_, ?_, h5⟩ <;> intro p
    all_goals simp only [setEnd_get]
    all_goals split
    all_goals first
      | (rename_i hq; subst hq; simp only; first | exact h1 p | exact Int.le_refl _ | exact h3 p | exact h4 p)
      | first | exact h1 p | exact h2 p | exact h3 p | exact h4 p
  | send =>
    simp only [step]
    split
    · rename_i p ts due htok
      rw [htok] at h5
      split
      · exact ⟨h1, h2, h3, h4, by rw [htok]; exact h5⟩
      · split
        · exact ⟨h1, h2, h3, h4, trivial⟩
        · refine ⟨h1, h2, h3, h4, ?_⟩
          show ts - c.off p.other.other ≤ s.now ∧ s.now ≤ s.now
          rw [other_other]
          simp only at h5
          omega
    · exact ⟨h1, h2, h3, h4, h5⟩
  | check q =>
    simp only [step]
    split
    · exact ⟨h1, h2, h3, h4, h5⟩
    · split
      · refine ⟨?_, ?_, ?_, ?_, h5⟩ <;> intro p
        all_goals simp only [setEnd_get]
        all_goals split
        all_goals first
          | (rename_i hq; subst hq; simp only; first | exact h1 p | exact h2 p | exact h3 p | (intro hx; cases hx))
          | first | exact h1 p | exact h2 p | exact h3 p | exact h4 p
      · refine ⟨?_, ?_, ?_, ?_, h5⟩ <;> intro p
        all_goals simp only [setEnd_get]
        all_goals split
        all_goals first
          | (rename_i hq; subst hq; simp only; first | exact h1 p | exact h2 p | exact Int.le_refl _ | (intro _; omega))
          | first | exact h1 p | exact h2 p | exact h3 p | exact h4 p
  | deliver =>
    simp only [step]
    split
    · rename_i q ts sent htok
      rw [htok] at h5
      simp only at h5
      split
      · exact ⟨h1, h2, h3, h4, trivial⟩
      · have hka : ∀ ex, (∀ l, (onKeepAlive c.timeout (s.ends q) ts (s.now + c.off q) ex).2.lastKa = some l →
              l - c.off q ≤ s.now + d) ∧
            (onKeepAlive c.timeout (s.ends q) ts (s.now + c.off q) ex).2.lastValid = (s.ends q).lastValid ∧
            (onKeepAlive c.timeout (s.ends q) ts (s.now + c.off q) ex).2.nextCheck = (s.ends q).nextCheck ∧
            (onKeepAlive c.timeout (s.ends q) ts (s.now + c.off q) ex).2.ended = (s.ends q).ended := by
          intro ex
          have hq := hd q
          have hl : (if s.now + c.off q - ts < 0 then s.now + c.off q - (s.now + c.off q - ts) else s.now + c.off q) -
              c.off q ≤ s.now + d := by
            split <;> omega
          unfold onKeepAlive
          by_cases hz : c.timeout = 0
          · simp only [hz, if_true]
            exact ⟨h1 q, trivial, trivial, trivial⟩
          · simp only [hz, if_false]
            generalize (if s.now + c.off q - ts < 0 then s.now + c.off q - (s.now + c.off q - ts) else s.now + c.off q)
              = cl at hl ⊢
            generalize (if s.now + c.off q - ts < 0 then -(s.now + c.off q - ts) else s.now + c.off q - ts) = pg
            cases (s.ends q).lastKa with
            | none => exact ⟨fun l hx => (by cases hx; exact hl), rfl, rfl, rfl⟩
            | some x =>
              by_cases hpg : pg > c.timeout
              · simp only [hpg, if_true]
                exact ⟨fun l hx => (by cases hx), trivial, trivial, trivial⟩
              · simp only [hpg, if_false]
                exact ⟨fun l hx => (by cases hx; exact hl), trivial, trivial, trivial⟩
        obtain ⟨k1, k2, k3, k4⟩ := hka (metaExpired (s.ends q) s.now)
        split
        · refine ⟨?_, ?_, ?_, ?_, ?_⟩
          · intro p
            simp only [setEnd_get]
            split
            · rename_i hq; subst hq; exact k1
            · exact h1 p
          · intro p
            simp only [setEnd_get]
            split
            · rename_i hq; subst hq; rw [k2]; exact h2 p
            · exact h2 p
          · intro p
            simp only [setEnd_get]
            split
            · rename_i hq; subst hq; rw [k3]; exact h3 p
            · exact h3 p
          · intro p
            simp only [setEnd_get]
            split
            · rename_i hq; subst hq; rw [k3, k4]; exact h4 p
            · exact h4 p
          · show s.now + c.off q + interval = s.now + interval + c.off q
            omega
        · refine ⟨?_, ?_, ?_, ?_, trivial⟩
          · intro p
            simp only [setEnd_get]
            split
            · rename_i hq; subst hq; exact k1
            · exact h1 p
          · intro p
            simp only [setEnd_get]
            split
            · rename_i hq; subst hq; simp only; rw [k2]; exact h2 p
            · exact h2 p
          · intro p
            simp only [setEnd_get]
            split
            · rename_i hq; subst hq; simp only; rw [k3]; exact h3 p
            · exact h3 p
          · intro p
            simp only [setEnd_get]
            split
            · intro hx; cases hx
            · exact h4 p
    · exact ⟨h1, h2, h3, h4, h5⟩

theorem upper_run {c : Cfg} {d : Int} (hjit : 0 ≤ c.jit) (h0 : 0 ≤ d)
    (hd : ∀ p : Side, c.off p.other - c.off p ≤ d) :
    ∀ (as : List Act) (s : St), Upper c d s → Upper c d (run c s as) := by
  intro as
  induction as with
  | nil => intro s h; exact h
  | cons a as ih => intro s h; exact ih _ (upper_step hjit h0 hd h a)

theorem upper_start {c : Cfg} {d : Int} (hjit : 0 ≤ c.jit) (valid check : Side → Int)
    (hv : ∀ p, valid p ≤ 0) (hc : ∀ p, 0 ≤ check p ∧ check p ≤ interval) : Upper c d (start c valid check) := by
  refine ⟨fun p l hl => (by cases hl), hv, ?_, ?_, ?_⟩
  · intro p
    have := (hc p).2
    show check p ≤ 0 + interval
    omega
  · intro p _
    have := (hc p).1
    show 0 ≤ check p + c.jit
    omega
  · by_cases ht : c.timeout = 0
    · simp [start, ht]
    · simp only [start, ht, if_false]
      show c.off .client - c.off .client ≤ 0 ∧ (0 : Int) ≤ 0
      omega

/-- An end that has a keep alive on record and to which nothing comes any more ends the session, at the latest
one interval after the timeout (and the difference of the clocks), counted from the moment the silence begins.
Missing: an end that has no keep alive on record (see the counterexamples). -/
theorem C136_silence_detected_partial (c : Cfg) (d : Int) (ht : c.timeout ≠ 0) (hjit : 0 ≤ c.jit) (h0 : 0 ≤ d)
    (hd : ∀ p : Side, c.off p.other - c.off p ≤ d) (valid check : Side → Int)
    (hv : ∀ p, valid p ≤ 0) (hc : ∀ p, 0 ≤ check p ∧ check p ≤ interval) (pre post : List Act) (p : Side)
    (hka : ((run c (start c valid check) pre).ends p).lastKa ≠ none)
    (hs : Silent p c (run c (start c valid check) pre) post)
    (late1 : (run c (start c valid check) pre).now + c.timeout + d + interval + c.jit <
      (run c (run c (start c valid check) pre) post).now)
    (late2 : (run c (start c valid check) pre).now + metaExpire + interval + c.jit <
      (run c (run c (start c valid check) pre) post).now) :
    ((run c (run c (start c valid check) pre) post).ends p).ended = true := by
  have hu : Upper c d (run c (start c valid check) pre) :=
    upper_run hjit h0 hd pre _ (upper_start hjit valid check hv hc)
  have hm : metaExpire = 60000000000 := by decide
  generalize run c (start c valid check) pre = s at hka hs late1 late2 hu ⊢
  cases hl : (s.ends p).lastKa with
  | none => exact absurd hl hka
  | some l =>
    have k1 := hu.ka p l hl
    have k2 := hu.valid p
    have k3 := hu.next p
    have hw : ∀ b, l - c.off p + c.timeout + interval ≤ b → (s.ends p).lastValid + metaExpire + interval ≤ b →
        s.now + interval ≤ b → Waiting c p l (s.ends p).lastValid b (run c s post) := by
      intro b e1 e2 e3
      refine waiting_run ht hjit e1 e2 post s ?_ hs
      by_cases he : (s.ends p).ended = true
      · exact Or.inl he
      · exact Or.inr ⟨hl, rfl, by omega, hu.soon p (by simpa using he)⟩
    rcases hw ((run c s post).now - c.jit - 1) (by omega) (by omega) (by omega) with h | ⟨-, -, h3, h4⟩
    · exact h
    · omega

/-- The server disappears after half an hour; the client notices. -/
example :
    let c : Cfg := ⟨defaultTimeout, fun _ => 0, 2000000000, 2000000000⟩
    let s := run c (start c (fun _ => 0) (fun _ => interval)) (idleHour.take 10)
    let post : List Act :=
      [.die .server, .tick 1000000000, .check .client, .tick 1000000000, .send, .lose, .tick 899000000000,
       .check .client, .tick 900000000000, .check .client, .tick 900000000000, .check .client, .tick 1000000000000]
    (s.ends .client).lastKa = some 902000000000 ∧ Silent .client c s post ∧
      s.now + c.timeout + 0 + interval + c.jit < (run c s post).now := by
  refine ⟨by decide, ?_, by decide⟩
  simp only [Silent]
  refine ⟨trivial, trivial, trivial, trivial, trivial, trivial, trivial, trivial, trivial, trivial, trivial, trivial,
    trivial, trivial⟩

/-- An end without a keep alive on record never notices anything. -/
theorem none_run {c : Cfg} {p : Side} : ∀ (as : List Act) (s : St), (s.ends p).lastKa = none →
    (s.ends p).ended = false → Silent p c s as → Act.die p ∉ as → ((run c s as).ends p).ended = false := by
  intro as
  induction as with
  | nil => intro s _ h _ _; exact h
  | cons a as ih =>
    intro s h1 h2 hs hdie
    have hmem : Act.die p ∉ as := fun h => hdie (List.mem_cons_of_mem _ h)
    have same : (step c s a).ends p = s.ends p ∨
        (((step c s a).ends p).lastKa = none ∧ ((step c s a).ends p).ended = false) := by
      cases a with
      | tick d =>
        left
        simp only [step]
        split <;> rfl
      | lose =>
        left
        simp only [step]
        split <;> rfl
      | die q =>
        left
        have hq : ¬ p = q := by rintro rfl; exact hdie (List.mem_cons_self ..)
        simp [step, setEnd, hq]
      | activity q =>
        left
        simp [step, setEnd, Ne.symm hs.1]
      | send =>
        left
        simp only [step]
        split
        · split
          · rfl
          · split <;> rfl
        · rfl
      | deliver =>
        left
        simp only [step]
        split
        · rename_i q ts sent htok
          have hq : ¬ p = q := by rintro rfl; exact hs.1 ts sent htok
          split
          · rfl
          · split <;> simp [setEnd, hq]
        · rfl
      | check q =>
        right
        simp only [step]
        split
        · exact ⟨h1, h2⟩
        · by_cases hq : p = q
          · subst hq
            have : checkEnds c.timeout (s.ends p) (s.now + c.off p) s.now = false := by
              simp [checkEnds, timedOut, h1]
            rw [this]
            simp only [Bool.false_eq_true, if_false, setEnd_same]
            exact ⟨h1, h2⟩
          · split
            · simp [setEnd, hq, h1, h2]
            · simp [setEnd, hq, h1, h2]
    have : ((step c s a).ends p).lastKa = none ∧ ((step c s a).ends p).ended = false := by
      rcases same with h | h
      · rw [h]; exact ⟨h1, h2⟩
      · exact h
    exact ih _ this.1 this.2 hs.2 hmem

/-- A client whose server disappears before the first keep alive comes back (which takes a quarter of an hour)
never notices: however long it waits, the checks do not end the session. -/
theorem C136_counterexample_never_heard (c : Cfg) (valid check : Side → Int) (acts : List Act)
    (hs : Silent .client c (start c valid check) acts) (hd : Act.die .client ∉ acts) :
    ((run c (start c valid check) acts).ends .client).ended = false :=
  none_run acts _ rfl rfl hs hd

/-- The server is gone after a second, and ten days pass. -/
example :
    let c : Cfg := ⟨defaultTimeout, fun _ => 0, 2000000000, 864000000000000⟩
    let acts : List Act := [.tick 1000000000, .die .server, .deliver, .tick 864000000000000, .check .client]
    Silent .client c (start c (fun _ => 0) (fun _ => interval)) acts ∧ Act.die .client ∉ acts ∧
      (run c (start c (fun _ => 0) (fun _ => interval)) acts).now = 864001000000000 := by
  refine ⟨?_, by decide, by decide⟩
  refine ⟨trivial, trivial, ?_, trivial, trivial, trivial⟩
  intro ts sent h
  exact absurd h (by
    have : (step ⟨defaultTimeout, fun _ => 0, 2000000000, 864000000000000⟩ (step
      ⟨defaultTimeout, fun _ => 0, 2000000000, 864000000000000⟩ (start
      ⟨defaultTimeout, fun _ => 0, 2000000000, 864000000000000⟩ (fun _ => 0) (fun _ => interval)) (.tick 1000000000))
      (.die .server)).tok = .flight .server 0 0 := by decide
    rw [this]
    intro h
    cases h)

/-- A keep alive that comes late while other packets are confirmed is accepted, but it leaves the end without a
keep alive on record (`take`): when the other end disappears now, it is never noticed. -/
theorem C136_counterexample_after_late (c : Cfg) (ht : c.timeout ≠ 0) (s : St) (p : Side) (ts sent l : Int)
    (htok : s.tok = .flight p ts sent) (hl : (s.ends p).lastKa = some l) (he : (s.ends p).ended = false)
    (hlate : s.now + c.off p - ts > c.timeout) (hpos : ts ≤ s.now + c.off p)
    (hact : s.now - (s.ends p).lastValid ≤ metaExpire) (post : List Act)
    (hs : Silent p c (step c s .deliver) post) (hd : Act.die p ∉ post) :
    ((run c s (.deliver :: post)).ends p).ended = false := by
  have hneg : ¬ (s.now + c.off p - ts < 0) := by omega
  have hex : metaExpired (s.ends p) s.now = false := by
    simp only [metaExpired, decide_eq_false_iff_not]
    omega
  have : step c s .deliver = { s with
      ends := setEnd s.ends p { s.ends p with lastKa := none }
      tok := .held p (s.now + c.off p + interval) (s.now + interval) } := by
    simp only [step, htok, he, onKeepAlive, ht, hl, hneg, hlate, hex, if_false, if_true, Bool.false_eq_true,
      Bool.not_false, Bool.or_self]
  refine none_run post _ ?_ ?_ hs hd
  · rw [this]
    simp only [setEnd_same]
  · rw [this]
    simp only [setEnd_same]
    exact he

end Verif.KeepAlive

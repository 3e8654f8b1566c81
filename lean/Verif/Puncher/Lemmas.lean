import Verif.Puncher.Spec
namespace Verif.Puncher

theorem open?_sealed {w : Wire} {k : Pkt} (h : w.open? = some k) : w = .sealed k := by
  cases w <;> simp [Wire.open?] at h; rw [h]

theorem setPunch_same (s : St) (i : Nat) (p : Punch) : (setPunch s i p).punch i = p := by simp [setPunch]
theorem setPunch_ne (s : St) {i j : Nat} (p : Punch) (h : j ≠ i) : (setPunch s i p).punch j = s.punch j := by simp [setPunch, h]
theorem setPunch_hist (s : St) (i : Nat) (p : Punch) : (setPunch s i p).hist = s.hist := rfl

/-- The steps, as a relation. -/
inductive Tr (role : Nat → Bool) (s : St) : Act → St → Prop
  | tick {i m n} : (s.punch i).bar? m = some (.tick n) → (s.punch i).locked m = false →
      Tr role s (.tick i m) (setPunch s i ((s.punch i).setBar m (.sending n (s.punch i).eps)))
  | stop {i m to o n todo} : (s.punch i).bar? m = some (.sending n todo) → to ∈ todo → (s.punch i).stopped = true →
      Tr role s (.send i m to o) (setPunch s i ((s.punch i).setBar m .okay))
  | send {i m to n todo k} : (s.punch i).bar? m = some (.sending n todo) → to ∈ todo → (s.punch i).stopped = false →
      (s.punch i).packet (role i) i m to = some k →
      Tr role s (.send i m to .okay) { setPunch s i ((s.punch i).setBar m (.sending n (todo.filter (· ≠ to)))) with
        hist := s.hist ++ [⟨i, to, .sealed k⟩] }
  | keep {i m to o n todo} : (s.punch i).bar? m = some (.sending n todo) → to ∈ todo → (s.punch i).stopped = false →
      o ≠ .okay → removes o = false →
      Tr role s (.send i m to o) (setPunch s i ((s.punch i).setBar m (.sending n (todo.filter (· ≠ to)))))
  | drop {i m to o n todo} : (s.punch i).bar? m = some (.sending n todo) → to ∈ todo → (s.punch i).stopped = false →
      removes o = true →
      Tr role s (.send i m to o) (setPunch s i { (s.punch i).setBar m (.sending n (todo.filter (· ≠ to))) with
        eps := (s.punch i).eps.filter (· ≠ to) })
  | endRound {i m n} : (s.punch i).bar? m = some (.sending n []) →
      Tr role s (.endRound i m) (setPunch s i ((s.punch i).setBar m
        (if (s.punch i).eps = [] then .failed else if n ≤ 1 then .okay else .tick (n - 1))))
  | lock {i src sent id} : (s.punch i).recv = .locking src sent id → (s.punch i).main.isSending = false →
      Tr role s (.lock i) (setPunch s i { s.punch i with
        eps := if src ∈ (s.punch i).eps then (s.punch i).eps else src :: (s.punch i).eps
        recv := .replying sent id (.tick 2) })
  | ignore {i n src ok d} : (s.punch i).recv = .listening → s.hist[n]? = some d → Tr role s (.deliver i n src ok) s
  | inject {i src w} : (s.punch i).recv = .listening → Tr role s (.inject i src w) s
  | syn {i n src ok d id sent} : (s.punch i).recv = .listening → s.hist[n]? = some d →
      d.wire = .sealed (.syn id (!role i) sent) → (s.punch i).hasSyn = false → id ≠ i →
      Tr role s (.deliver i n src ok) (setPunch s i { s.punch i with
        hasSyn := true, observed := (s.punch i).observed.insert id src, recv := .locking src sent id })
  | ack {i n src ok d id sent} : (s.punch i).recv = .listening → s.hist[n]? = some d →
      d.wire = .sealed (.synAck id (!role i) sent i) → src = sent →
      Tr role s (.deliver i n src ok) (setPunch s i { s.punch i with stopped := true, recv := .done sent src id })
  | ackElse {i n src d id sent} : (s.punch i).recv = .listening → s.hist[n]? = some d →
      d.wire = .sealed (.synAck id (!role i) sent i) → src ≠ sent →
      Tr role s (.deliver i n src true) { setPunch s i { s.punch i with stopped := true, recv := .done sent src id } with
        hist := s.hist ++ [⟨i, src, .plain .check⟩] }
  | reset {i} : (s.punch i).recv = .listening → Tr role s (.reset i) (setPunch s i { s.punch i with recv := .failed })
  | timeout {i} : (∀ a b j, (s.punch i).recv ≠ .done a b j) → (s.punch i).recv ≠ .failed →
      Tr role s (.timeout i) (setPunch s i { s.punch i with recv := .failed })

theorem eq_not {a b : Bool} (h : a ≠ b) : a = !b := by cases a <;> cases b <;> simp_all

theorem setPunch_self (s : St) (i : Nat) : setPunch s i (s.punch i) = s := by
  unfold setPunch
  cases s
  congr 1
  funext j
  split
  · rename_i h; rw [h]
  · rfl

theorem removes_okay : removes .okay = false := rfl

theorem setBar_eps (p : Punch) (m : Bool) (b : Bar) : (p.setBar m b).eps = p.eps := by
  unfold Punch.setBar; split
  · rfl
  · split
    · split <;> rfl
    · rfl

theorem tr_of_step {role : Nat → Bool} {s s' : St} {a : Act} (h : step role s a = some s') : Tr role s a s' := by
  cases a with
  | tick i m =>
    simp only [step] at h
    split at h
    · rename_i n hb
      split at h
      · exact absurd h (by simp)
      · rename_i hl
        cases h
        exact .tick hb (by simpa using hl)
    · exact absurd h (by simp)
  | send i m to o =>
    simp only [step] at h
    split at h
    · rename_i n todo hb
      split at h
      · rename_i hm
        split at h
        · rename_i hst
          cases h; exact .stop hb hm hst
        · rename_i hst
          have hst : (s.punch i).stopped = false := by simpa using hst
          split at h
          · exact absurd h (by simp)
          · rename_i k hk
            by_cases ho : o = .okay
            · subst ho
              simp only [removes_okay, Option.some.injEq] at h
              subst h
              exact .send hb hm hst hk
            · rw [if_neg ho] at h
              by_cases hr : removes o = true
              · rw [if_pos hr] at h
                cases h
                have := Tr.drop (role := role) (o := o) hb hm hst hr
                rw [setBar_eps]; exact this
              · rw [if_neg hr] at h
                cases h
                exact .keep hb hm hst ho (by simpa using hr)
      · exact absurd h (by simp)
    · exact absurd h (by simp)
  | endRound i m =>
    simp only [step] at h
    split at h
    · rename_i n hb; cases h; exact .endRound hb
    · exact absurd h (by simp)
  | lock i =>
    simp only [step] at h
    split at h
    · rename_i src sent id hr
      split at h
      · exact absurd h (by simp)
      · rename_i hm; cases h; exact .lock hr (by simpa using hm)
    · exact absurd h (by simp)
  | deliver i n src ok =>
    simp only [step] at h
    split at h
    · rename_i d hr hd
      split at h
      · rename_i k hk
        have hw := open?_sealed hk
        cases k with
        | check =>
          simp only [handle, checks, Bool.false_and, Bool.false_eq_true, if_false, Option.some.injEq, setPunch_self] at h
          subst h; exact .ignore hr hd
        | syn id r sent =>
          simp only [handle, checks, Bool.false_and, Bool.false_eq_true, if_false, Option.some.injEq] at h
          split at h
          · rw [setPunch_self] at h; subst h; exact .ignore hr hd
          · rename_i hs
            split at h
            · rw [setPunch_self] at h; subst h; exact .ignore hr hd
            · rename_i hc
              subst h
              have hc : r ≠ role i ∧ id ≠ i := ⟨fun e => hc (.inl e), fun e => hc (.inr e)⟩
              have := eq_not hc.1; subst this
              exact .syn hr hd hw (by simpa using hs) hc.2
        | synAck id r sent peer =>
          simp only [handle, checks] at h
          by_cases hrr : r = role i
          · simp [hrr, setPunch_self] at h; subst h; exact .ignore hr hd
          · have := eq_not hrr; subst this
            by_cases hp : peer = i
            · subst hp
              by_cases hs : src = sent
              · subst hs
                simp [hrr] at h
                subst h
                exact .ack hr hd hw rfl
              · cases ok with
                | true =>
                  simp [hrr, hs] at h
                  subst h
                  exact .ackElse hr hd hw hs
                | false =>
                  simp [hrr, hs, setPunch_self] at h; subst h; exact .ignore hr hd
            · simp [hrr, hp, setPunch_self] at h; subst h; exact .ignore hr hd
      · cases h; exact .ignore hr hd
    · exact absurd h (by simp)
  | inject i src w =>
    simp only [step] at h
    split at h
    · exact absurd h (by simp)
    · rename_i hr hw
      split at h
      · exact absurd h (by simp)
      · cases h; exact .inject (by assumption)
    · exact absurd h (by simp)
  | reset i =>
    simp only [step] at h
    split at h
    · rename_i hr; cases h; exact .reset hr
    · exact absurd h (by simp)
  | timeout i =>
    simp only [step] at h
    split at h
    · exact absurd h (by simp)
    · exact absurd h (by simp)
    · rename_i h1 h2
      cases h
      exact .timeout (fun a b j e => h1 a b j e) h2

/-! ### Runs -/

theorem run_inv {role : Nat → Bool} {P : St → Prop} (hstep : ∀ s a s', P s → step role s a = some s' → P s') :
    ∀ (as : List Act) (s s' : St), P s → run role s as = some s' → P s'
  | [], s, s', h, hr => by simp only [run, Option.some.injEq] at hr; exact hr ▸ h
  | a :: as, s, s', h, hr => by
    simp only [run] at hr
    split at hr
    · exact absurd hr (by simp)
    · rename_i s1 h1
      exact run_inv hstep as s1 s' (hstep s a s1 h h1) hr

theorem run_along {role : Nat → Bool} {Q : St → Act → Prop} {P : St → Prop}
    (hstep : ∀ s a s', P s → Q s a → step role s a = some s' → P s') :
    ∀ (as : List Act) (s s' : St), P s → Along role Q s as → run role s as = some s' → P s'
  | [], s, s', h, _, hr => by simp only [run, Option.some.injEq] at hr; exact hr ▸ h
  | a :: as, s, s', h, hq, hr => by
    simp only [run] at hr
    split at hr
    · exact absurd hr (by simp)
    · rename_i s1 h1
      exact run_along hstep as s1 s' (hstep s a s1 h hq.1 h1) (hq.2 s1 h1) hr

theorem run_append {role : Nat → Bool} : ∀ (as bs : List Act) (s : St),
    run role s (as ++ bs) = (run role s as).bind fun s' => run role s' bs
  | [], bs, s => rfl
  | a :: as, bs, s => by
    simp only [List.cons_append, run]
    cases step role s a with
    | none => rfl
    | some s1 => exact run_append as bs s1

/-! ### What a barrage leaves alone -/

theorem setBar_observed (p : Punch) (m : Bool) (b : Bar) : (p.setBar m b).observed = p.observed := by
  unfold Punch.setBar; split
  · rfl
  · split
    · split <;> rfl
    · rfl

theorem setBar_hasSyn (p : Punch) (m : Bool) (b : Bar) : (p.setBar m b).hasSyn = p.hasSyn := by
  unfold Punch.setBar; split
  · rfl
  · split
    · split <;> rfl
    · rfl

theorem setBar_stopped (p : Punch) (m : Bool) (b : Bar) : (p.setBar m b).stopped = p.stopped := by
  unfold Punch.setBar; split
  · rfl
  · split
    · split <;> rfl
    · rfl

/-- Where the receiver task may be after a move of a barrage. -/
theorem setBar_recv (p : Punch) (m : Bool) (b : Bar) : (p.setBar m b).recv = p.recv ∨
    ∃ a id b0, p.recv = .replying a id b0 ∧
      ((p.setBar m b).recv = .listening ∨ (p.setBar m b).recv = .failed ∨ (p.setBar m b).recv = .replying a id b) := by
  unfold Punch.setBar; split
  · exact .inl rfl
  · split
    · rename_i a id b0 h
      refine .inr ⟨a, id, b0, h, ?_⟩
      split
      · exact .inl rfl
      · exact .inr (.inl rfl)
      · exact .inr (.inr rfl)
    · exact .inl rfl

/-! ### The invariant -/

/-- What is known of the sender of a `Syn` that puncher `i` answers. -/
def Heard (role : Nat → Bool) (s : St) (i id : Nat) (sent : Addr) : Prop :=
  (s.punch i).hasSyn = true ∧ ((s.punch i).observed.get? id).isSome ∧ SynTo role s id sent ∧ role id ≠ role i

/-- Everything in the history is what a puncher sends. -/
def Genuine (role : Nat → Bool) (s : St) (d : Sent) : Prop :=
  match d.wire with
  | .sealed (.syn id r to) => id = d.src ∧ r = role id ∧ to = d.to
  | .sealed (.synAck id r sent peer) => id = d.src ∧ r = role id ∧ Heard role s id peer sent
  | .sealed .check => False
  | _ => True

structure Inv (role : Nat → Bool) (s : St) : Prop where
  hist : ∀ d ∈ s.hist, Genuine role s d
  locking : ∀ i src sent id, (s.punch i).recv = .locking src sent id → Heard role s i id sent
  replying : ∀ i sent id b, (s.punch i).recv = .replying sent id b → Heard role s i id sent
  done : ∀ i a b j, (s.punch i).recv = .done a b j → AckTo role s j i a ∧ (s.punch i).stopped = true
  fresh : ∀ i, (s.punch i).hasSyn = false → (s.punch i).observed = []
  one : ∀ i, (s.punch i).observed.length ≤ 1

theorem Inv.init (role : Nat → Bool) (eps : Nat → List Addr) : Inv role (init eps) where
  hist := by intro d hd; simp [Puncher.init] at hd
  locking := by intro i a b c h; simp [Puncher.init] at h
  replying := by intro i a b c h; simp [Puncher.init] at h
  done := by intro i a b c h; simp [Puncher.init] at h
  fresh := by intro i _; rfl
  one := by intro i; simp [Puncher.init]

/-- What only grows. -/
structure Grows (s s' : St) : Prop where
  hist : ∀ d ∈ s.hist, d ∈ s'.hist
  hasSyn : ∀ i, (s.punch i).hasSyn = true → (s'.punch i).hasSyn = true
  observed : ∀ i id, ((s.punch i).observed.get? id).isSome → ((s'.punch i).observed.get? id).isSome

theorem Heard.mono {role : Nat → Bool} {s s' : St} (g : Grows s s') {i id : Nat} {sent : Addr} (h : Heard role s i id sent) :
    Heard role s' i id sent :=
  ⟨g.hasSyn _ h.1, g.observed _ _ h.2.1, g.hist _ h.2.2.1, h.2.2.2⟩

theorem Genuine.mono {role : Nat → Bool} {s s' : St} (g : Grows s s') {d : Sent} (h : Genuine role s d) : Genuine role s' d := by
  unfold Genuine at h ⊢
  split
  · rename_i e; rw [e] at h; exact h
  · rename_i e; rw [e] at h; exact ⟨h.1, h.2.1, h.2.2.mono g⟩
  · rename_i e; rw [e] at h; exact h
  · trivial

theorem AckTo.mono {role : Nat → Bool} {s s' : St} (g : Grows s s') {j i : Nat} {a : Addr} (h : AckTo role s j i a) :
    AckTo role s' j i a := let ⟨t, ht⟩ := h; ⟨t, g.hist _ ht⟩

theorem Grows.of_set {s : St} {i : Nat} {p : Punch} {l : List Sent} (h1 : (s.punch i).hasSyn = true → p.hasSyn = true)
    (h2 : ∀ id, ((s.punch i).observed.get? id).isSome → (p.observed.get? id).isSome) :
    Grows s { setPunch s i p with hist := s.hist ++ l } where
  hist := fun d hd => List.mem_append_left _ hd
  hasSyn := by
    intro j h
    by_cases e : j = i
    · subst e; simpa [setPunch] using h1 h
    · simpa [setPunch, e] using h
  observed := by
    intro j id h
    by_cases e : j = i
    · subst e; simpa [setPunch] using h2 id h
    · simpa [setPunch, e] using h

/-- A move of a puncher, with what it sends, keeps the invariant. -/
theorem Inv.set {role : Nat → Bool} {s : St} (h : Inv role s) {i : Nat} {p : Punch} {l : List Sent}
    (h1 : (s.punch i).hasSyn = true → p.hasSyn = true)
    (h2 : ∀ id, ((s.punch i).observed.get? id).isSome → (p.observed.get? id).isSome)
    (hl : ∀ d ∈ l, Genuine role { setPunch s i p with hist := s.hist ++ l } d)
    (hlock : ∀ src sent id, p.recv = .locking src sent id → Heard role { setPunch s i p with hist := s.hist ++ l } i id sent)
    (hrep : ∀ sent id b, p.recv = .replying sent id b → Heard role { setPunch s i p with hist := s.hist ++ l } i id sent)
    (hdone : ∀ a b j, p.recv = .done a b j → AckTo role { setPunch s i p with hist := s.hist ++ l } j i a ∧ p.stopped = true)
    (hf : p.hasSyn = false → p.observed = []) (ho : p.observed.length ≤ 1) :
    Inv role { setPunch s i p with hist := s.hist ++ l } := by
  have g : Grows s { setPunch s i p with hist := s.hist ++ l } := .of_set h1 h2
  have hp : ∀ j, ({ setPunch s i p with hist := s.hist ++ l } : St).punch j = if j = i then p else s.punch j := fun j => rfl
  constructor
  · intro d hd
    rcases List.mem_append.mp hd with hd | hd
    · exact (h.hist d hd).mono g
    · exact hl d hd
  · intro j src sent id e
    rw [hp] at e
    split at e
    · rename_i hj; subst hj; exact hlock _ _ _ e
    · exact (h.locking _ _ _ _ e).mono g
  · intro j sent id b e
    rw [hp] at e
    split at e
    · rename_i hj; subst hj; exact hrep _ _ _ e
    · exact (h.replying _ _ _ _ e).mono g
  · intro j a b k e
    rw [hp] at e ⊢
    split at e
    · rename_i hj; subst hj; rw [if_pos rfl]; exact hdone _ _ _ e
    · rename_i hj; rw [if_neg hj]; exact ⟨(h.done _ _ _ _ e).1.mono g, (h.done _ _ _ _ e).2⟩
  · intro j e
    rw [hp] at e ⊢
    split at e
    · rename_i hj; rw [if_pos hj]; exact hf e
    · rename_i hj; rw [if_neg hj]; exact h.fresh _ e
  · intro j
    rw [hp]
    split
    · exact ho
    · exact h.one j

theorem hist_nil (s : St) : { s with hist := s.hist ++ [] } = s := by simp

/-- The moves of a barrage. -/
theorem Inv.setBar {role : Nat → Bool} {s : St} (h : Inv role s) (i : Nat) (m : Bool) (b : Bar) (eps : List Addr) (l : List Sent)
    (hl : ∀ d ∈ l, ∀ s', Grows s s' → Genuine role s' d) :
    Inv role { setPunch s i { (s.punch i).setBar m b with eps := eps } with hist := s.hist ++ l } := by
  have e1 := setBar_hasSyn (s.punch i) m b
  have e2 := setBar_observed (s.punch i) m b
  have e3 := setBar_stopped (s.punch i) m b
  have e4 := setBar_recv (s.punch i) m b
  have h1 : (s.punch i).hasSyn = true → ({ (s.punch i).setBar m b with eps := eps } : Punch).hasSyn = true := by
    intro hh; exact e1.trans hh
  have h2 : ∀ id, ((s.punch i).observed.get? id).isSome →
      (({ (s.punch i).setBar m b with eps := eps } : Punch).observed.get? id).isSome := by
    intro id hh; show (((s.punch i).setBar m b).observed.get? id).isSome; rw [e2]; exact hh
  have g := Grows.of_set (l := l) h1 h2
  apply h.set h1 h2
  · exact fun d hd => hl d hd _ g
  · intro src sent id e
    have e : ((s.punch i).setBar m b).recv = .locking src sent id := e
    rcases e4 with e4 | ⟨a, id', b0, _, e4 | e4 | e4⟩
    · rw [e4] at e; exact (h.locking _ _ _ _ e).mono g
    all_goals rw [e4] at e; exact absurd e (by simp)
  · intro sent id b' e
    have e : ((s.punch i).setBar m b).recv = .replying sent id b' := e
    rcases e4 with e4 | ⟨a, id', b0, e5, e4 | e4 | e4⟩
    · rw [e4] at e; exact (h.replying _ _ _ _ e).mono g
    · rw [e4] at e; exact absurd e (by simp)
    · rw [e4] at e; exact absurd e (by simp)
    · rw [e4] at e
      simp only [Recv.replying.injEq] at e
      obtain ⟨rfl, rfl, _⟩ := e
      exact (h.replying _ _ _ _ e5).mono g
  · intro a b' j e
    have e : ((s.punch i).setBar m b).recv = .done a b' j := e
    rcases e4 with e4 | ⟨a, id', b0, _, e4 | e4 | e4⟩
    · rw [e4] at e; exact ⟨(h.done _ _ _ _ e).1.mono g, e3.trans (h.done _ _ _ _ e).2⟩
    all_goals rw [e4] at e; exact absurd e (by simp)
  · intro e
    have e : ((s.punch i).setBar m b).hasSyn = false := e
    show ((s.punch i).setBar m b).observed = []
    rw [e2]; exact h.fresh _ (e1 ▸ e)
  · show ((s.punch i).setBar m b).observed.length ≤ 1
    rw [e2]; exact h.one i

theorem Inv.setBar' {role : Nat → Bool} {s : St} (h : Inv role s) (i : Nat) (m : Bool) (b : Bar) :
    Inv role (setPunch s i ((s.punch i).setBar m b)) := by
  have := h.setBar i m b (s.punch i).eps [] (by simp)
  have e : ({ (s.punch i).setBar m b with eps := (s.punch i).eps } : Punch) = (s.punch i).setBar m b := by
    conv => lhs; rw [← setBar_eps (s.punch i) m b]
  rw [e, ← setPunch_hist s i ((s.punch i).setBar m b)] at this
  rwa [hist_nil] at this

theorem Inv.setQuiet {role : Nat → Bool} {s : St} (h : Inv role s) {i : Nat} {p : Punch}
    (h1 : (s.punch i).hasSyn = true → p.hasSyn = true)
    (h2 : ∀ id, ((s.punch i).observed.get? id).isSome → (p.observed.get? id).isSome)
    (hlock : ∀ src sent id, p.recv = .locking src sent id → Heard role (setPunch s i p) i id sent)
    (hrep : ∀ sent id b, p.recv = .replying sent id b → Heard role (setPunch s i p) i id sent)
    (hdone : ∀ a b j, p.recv = .done a b j → AckTo role (setPunch s i p) j i a ∧ p.stopped = true)
    (hf : p.hasSyn = false → p.observed = []) (ho : p.observed.length ≤ 1) : Inv role (setPunch s i p) := by
  have e : ({ setPunch s i p with hist := s.hist ++ [] } : St) = setPunch s i p := by simp [setPunch]
  have := h.set (i := i) (p := p) (l := []) h1 h2 (by simp) (by rw [e]; exact hlock) (by rw [e]; exact hrep)
    (by rw [e]; exact hdone) hf ho
  rwa [e] at this

theorem mem_of_get {l : List Sent} {n : Nat} {d : Sent} (h : l[n]? = some d) : d ∈ l := List.mem_of_getElem? h

theorem bool_ne_not {a b : Bool} (h : a = !b) : a ≠ b := by cases b <;> simp_all

theorem Inv.step {role : Nat → Bool} {s s' : St} {a : Act} (h : Inv role s) (hs : step role s a = some s') : Inv role s' := by
  have t := tr_of_step hs
  clear hs
  cases t with
  | tick hb hl => exact h.setBar' _ _ _
  | stop hb hm hst => exact h.setBar' _ _ _
  | keep hb hm hst ho hr => exact h.setBar' _ _ _
  | endRound hb => exact h.setBar' _ _ _
  | @drop i m to o n todo hb hm hst hr =>
    have := h.setBar i m (.sending n (todo.filter (· ≠ to))) ((s.punch i).eps.filter (· ≠ to)) [] (by simp)
    rw [List.append_nil] at this
    exact this
  | @send i m to n todo k hb hm hst hk =>
    have := h.setBar i m (.sending n (todo.filter (· ≠ to))) (s.punch i).eps [⟨i, to, .sealed k⟩] (by
      intro d hd s' g
      simp only [List.mem_cons, List.not_mem_nil, or_false] at hd
      subst hd
      unfold Punch.packet at hk
      split at hk
      · simp only [Option.some.injEq] at hk; subst hk; exact ⟨rfl, rfl, rfl⟩
      · split at hk
        · rename_i hr
          simp only [Option.some.injEq] at hk; subst hk
          exact ⟨rfl, rfl, (h.replying _ _ _ _ hr).mono g⟩
        · exact absurd hk (by simp))
    have e : ({ (s.punch i).setBar m (.sending n (todo.filter (· ≠ to))) with eps := (s.punch i).eps } : Punch) =
        (s.punch i).setBar m (.sending n (todo.filter (· ≠ to))) := by
      conv => lhs; rw [← setBar_eps (s.punch i) m (.sending n (todo.filter (· ≠ to)))]
    rw [e] at this
    exact this
  | @lock i src sent id hr hm =>
    have hh := h.locking _ _ _ _ hr
    refine h.setQuiet (fun x => x) (fun _ x => x) ?_ ?_ ?_ (h.fresh i) (h.one i)
    · intro a b c e; exact absurd e (by simp)
    · intro a b c e
      simp only [Recv.replying.injEq] at e
      obtain ⟨rfl, rfl, _⟩ := e
      refine Heard.mono (s := s) ?_ hh
      refine ⟨fun _ hd => hd, ?_, ?_⟩
      · intro j; by_cases e : j = i
        · subst e; simp [setPunch]
        · simp [setPunch, e]
      · intro j; by_cases e : j = i
        · subst e; simp [setPunch]
        · simp [setPunch, e]
    · intro a b c e; exact absurd e (by simp)
  | ignore => exact h
  | inject => exact h
  | @syn i n src ok d id sent hr hd hw hn hne =>
    have hg := h.hist d (mem_of_get hd)
    unfold Genuine at hg
    rw [hw] at hg
    obtain ⟨hg1, hg2, hg3⟩ := hg
    have hf := h.fresh i hn
    refine h.setQuiet (fun _ => rfl) ?_ ?_ ?_ ?_ ?_ ?_
    · intro id' hx; rw [hf] at hx; simp at hx
    · intro a b c e
      simp only [Recv.locking.injEq] at e
      obtain ⟨rfl, rfl, rfl⟩ := e
      refine ⟨by simp [setPunch], by simp [setPunch], ?_, bool_ne_not hg2.symm⟩
      show _ ∈ s.hist
      have : d = ⟨id, sent, .sealed (.syn id (role id) sent)⟩ := by
        cases d; simp only at hw hg1 hg3; subst hg1; subst hg3; rw [hw, hg2]
      exact this ▸ mem_of_get hd
    · intro a b c e; exact absurd e (by simp)
    · intro a b c e; exact absurd e (by simp)
    · intro e; exact absurd e (by simp)
    · simp [hf, AMap.insert, AMap.erase]
  | @ack i n src ok d id sent hr hd hw hsrc =>
    have hg := h.hist d (mem_of_get hd)
    unfold Genuine at hg
    rw [hw] at hg
    obtain ⟨hg1, hg2, hg3⟩ := hg
    refine h.setQuiet (fun x => x) (fun _ x => x) ?_ ?_ ?_ (h.fresh i) (h.one i)
    · intro a b c e; exact absurd e (by simp)
    · intro a b c e; exact absurd e (by simp)
    · intro a b c e
      simp only [Recv.done.injEq] at e
      obtain ⟨rfl, rfl, rfl⟩ := e
      refine ⟨⟨d.to, ?_⟩, rfl⟩
      show _ ∈ s.hist
      have : d = ⟨id, d.to, .sealed (.synAck id (role id) sent i)⟩ := by
        cases d; simp only at hw hg1; subst hg1; rw [hw, hg2]
      exact this ▸ mem_of_get hd
  | @ackElse i n src d id sent hr hd hw hsrc =>
    have hg := h.hist d (mem_of_get hd)
    unfold Genuine at hg
    rw [hw] at hg
    obtain ⟨hg1, hg2, hg3⟩ := hg
    refine h.set (fun x => x) (fun _ x => x) ?_ ?_ ?_ ?_ (h.fresh i) (h.one i)
    · intro d' hd'
      simp only [List.mem_cons, List.not_mem_nil, or_false] at hd'
      subst hd'; trivial
    · intro a b c e; exact absurd e (by simp)
    · intro a b c e; exact absurd e (by simp)
    · intro a b c e
      simp only [Recv.done.injEq] at e
      obtain ⟨rfl, rfl, rfl⟩ := e
      refine ⟨⟨d.to, List.mem_append_left _ ?_⟩, rfl⟩
      have : d = ⟨id, d.to, .sealed (.synAck id (role id) sent i)⟩ := by
        cases d; simp only at hw hg1; subst hg1; rw [hw, hg2]
      exact this ▸ mem_of_get hd
  | @reset i hr =>
    refine h.setQuiet (fun x => x) (fun _ x => x) ?_ ?_ ?_ (h.fresh i) (h.one i)
    · intro a b c e; exact absurd e (by simp)
    · intro a b c e; exact absurd e (by simp)
    · intro a b c e; exact absurd e (by simp)
  | @timeout i h1 h2 =>
    refine h.setQuiet (fun x => x) (fun _ x => x) ?_ ?_ ?_ (h.fresh i) (h.one i)
    · intro a b c e; exact absurd e (by simp)
    · intro a b c e; exact absurd e (by simp)
    · intro a b c e; exact absurd e (by simp)

theorem Inv.run {role : Nat → Bool} {eps : Nat → List Addr} {as : List Act} {s : St} (h : run role (Puncher.init eps) as = some s) :
    Inv role s := run_inv (fun _ _ _ hp hs => Inv.step hp hs) as _ s (Inv.init role eps) h

end Verif.Puncher

import Verif.Puncher.Lemmas
/-!
What the result of a puncher is worth.
-/
namespace Verif.Puncher

/-! ### C169: what a result means -/

/-- A puncher that has a result with `j`: it had sent its `Syn` to the address `initial` of the result, `j` belongs to the other
endpoint, and `j` got that `Syn` and answered it. Whatever the network and others do. -/
theorem C169_sound {role : Nat → Bool} {eps : Nat → List Addr} {as : List Act} {s : St}
    (h : run role (init eps) as = some s) {i j : Nat} {a b : Addr} (hd : (s.punch i).recv = .done a b j) :
    role j ≠ role i ∧ SynTo role s i a ∧ AckTo role s j i a := by
  have inv := Inv.run h
  have hk := (inv.done _ _ _ _ hd).1
  obtain ⟨t, ht⟩ := id hk
  have hg := inv.hist _ ht
  simp only [Genuine] at hg
  exact ⟨fun e => hg.2.2.2.2.2 e.symm, hg.2.2.2.2.1, hk⟩

/-! ### C170: the address in the result -/

/-- The full statement: the address that a result says to send to is the one where the peer is seen. -/
def C170_full : Prop := ∀ (role : Nat → Bool) (eps : Nat → List Addr) (seen : Nat → Nat → Addr) (as : List Act) (s : St)
  (i j : Nat) (a b : Addr), run role (init eps) as = some s → (s.punch i).recv = .done a b j → b = seen j i

/-- The addresses in results and in what was noted of `Syn`s are those where their puncher is seen. -/
structure Placed (seen : Nat → Nat → Addr) (s : St) : Prop where
  observed : ∀ i id a, (s.punch i).observed.get? id = some a → a = seen id i
  done : ∀ i a b j, (s.punch i).recv = .done a b j → b = seen j i

theorem Placed.set {seen : Nat → Nat → Addr} {s : St} (h : Placed seen s) {i : Nat} {p : Punch} {l : List Sent}
    (h1 : ∀ id a, p.observed.get? id = some a → (s.punch i).observed.get? id = some a ∨ a = seen id i)
    (h2 : ∀ a b j, p.recv = .done a b j → (s.punch i).recv = .done a b j ∨ b = seen j i) :
    Placed seen { setPunch s i p with hist := l } := by
  have hp : ∀ j, ({ setPunch s i p with hist := l } : St).punch j = if j = i then p else s.punch j := fun j => rfl
  constructor
  · intro j id a e
    rw [hp] at e
    split at e
    · rename_i hj; subst hj
      rcases h1 _ _ e with e | e
      · exact h.observed _ _ _ e
      · exact e
    · exact h.observed _ _ _ e
  · intro j a b k e
    rw [hp] at e
    split at e
    · rename_i hj; subst hj
      rcases h2 _ _ _ e with e | e
      · exact h.done _ _ _ _ e
      · exact e
    · exact h.done _ _ _ _ e

theorem Placed.set' {seen : Nat → Nat → Addr} {s : St} (h : Placed seen s) {i : Nat} {p : Punch}
    (h1 : ∀ id a, p.observed.get? id = some a → (s.punch i).observed.get? id = some a ∨ a = seen id i)
    (h2 : ∀ a b j, p.recv = .done a b j → (s.punch i).recv = .done a b j ∨ b = seen j i) :
    Placed seen (setPunch s i p) := h.set (l := s.hist) h1 h2

theorem setBar_done {p : Punch} {m : Bool} {b : Bar} {x y : Addr} {j : Nat} (e : (p.setBar m b).recv = .done x y j) :
    p.recv = .done x y j := by
  rcases setBar_recv p m b with h | ⟨_, _, _, _, h | h | h⟩
  · exact h ▸ e
  all_goals rw [h] at e; exact absurd e (by simp)

theorem Placed.setBar {seen : Nat → Nat → Addr} {s : St} (h : Placed seen s) (i : Nat) (m : Bool) (b : Bar) (eps : List Addr)
    (l : List Sent) : Placed seen { setPunch s i { (s.punch i).setBar m b with eps := eps } with hist := l } :=
  h.set (fun id a e => .inl (by
      have e : ((s.punch i).setBar m b).observed.get? id = some a := e
      rwa [setBar_observed] at e))
    (fun _ _ _ e => .inl (setBar_done (p := s.punch i) (m := m) (b := b) e))

theorem Placed.setBar' {seen : Nat → Nat → Addr} {s : St} (h : Placed seen s) (i : Nat) (m : Bool) (b : Bar) (l : List Sent) :
    Placed seen { setPunch s i ((s.punch i).setBar m b) with hist := l } :=
  h.set (fun id a e => .inl (by rwa [setBar_observed] at e)) (fun _ _ _ e => .inl (setBar_done e))

theorem Placed.step {role : Nat → Bool} {seen : Nat → Nat → Addr} {s s' : St} {a : Act} (inv : Inv role s) (h : Placed seen s)
    (hh : Honest seen s a) (hs : Puncher.step role s a = some s') : Placed seen s' := by
  have t := tr_of_step hs
  clear hs
  cases t with
  | tick hb hl => exact h.setBar' _ _ _ s.hist
  | stop hb hm hst => exact h.setBar' _ _ _ s.hist
  | keep hb hm hst ho hr => exact h.setBar' _ _ _ s.hist
  | endRound hb => exact h.setBar' _ _ _ s.hist
  | drop hb hm hst hr => exact h.setBar _ _ _ _ s.hist
  | send hb hm hst hk => exact h.setBar' _ _ _ _
  | lock hr hm => exact h.set' (fun _ _ e => .inl e) (fun _ _ _ e => absurd e (by simp))
  | ignore => exact h
  | inject => exact h
  | @syn i n src ok d id sent hr hd hw hn hne =>
    have hsrc : src = seen d.src i := hh d hd
    have hg := inv.hist d (mem_of_get hd)
    unfold Genuine at hg
    rw [hw] at hg
    refine h.set' (fun id' a e => ?_) (fun _ _ _ e => absurd e (by simp))
    simp only [AMap.get?_insert] at e
    split at e
    · rename_i hid
      subst hid
      simp only [Option.some.injEq] at e
      exact .inr (by rw [← e, hsrc, ← hg.1])
    · exact .inl e
  | @ack i n src ok d id sent hr hd hw hsrc =>
    have hsrc' : src = seen d.src i := hh d hd
    have hg := inv.hist d (mem_of_get hd)
    unfold Genuine at hg
    rw [hw] at hg
    refine h.set' (fun _ _ e => .inl e) (fun a b j e => ?_)
    simp only [Recv.done.injEq] at e
    obtain ⟨rfl, rfl, rfl⟩ := e
    exact .inr (by rw [hsrc', ← hg.1])
  | @ackElse i n src d id sent hr hd hw hsrc =>
    have hsrc' : src = seen d.src i := hh d hd
    have hg := inv.hist d (mem_of_get hd)
    unfold Genuine at hg
    rw [hw] at hg
    refine h.set (fun _ _ e => .inl e) (fun a b j e => ?_)
    simp only [Recv.done.injEq] at e
    obtain ⟨rfl, rfl, rfl⟩ := e
    exact .inr (by rw [hsrc', ← hg.1])
  | reset hr => exact h.set' (fun _ _ e => .inl e) (fun _ _ _ e => absurd e (by simp))
  | timeout h1 h2 => exact h.set' (fun _ _ e => .inl e) (fun _ _ _ e => absurd e (by simp))

theorem Placed.run {role : Nat → Bool} {eps : Nat → List Addr} {seen : Nat → Nat → Addr} {as : List Act} {s : St}
    (h : Puncher.run role (Puncher.init eps) as = some s) (hh : Along role (Honest seen) (Puncher.init eps) as) :
    Placed seen s :=
  (run_along (P := fun s => Inv role s ∧ Placed seen s) (fun s a s' hp hq hs => ⟨hp.1.step hs, hp.2.step hp.1 hq hs⟩) as _ s
    ⟨Inv.init role eps, ⟨fun i id a e => by simp [Puncher.init] at e, fun i a b j e => by simp [Puncher.init] at e⟩⟩ hh h).2

/-- It holds as long as what arrives says truly where it comes from. -/
theorem C170_address_partial {role : Nat → Bool} {eps : Nat → List Addr} {seen : Nat → Nat → Addr} {as : List Act} {s : St}
    (h : run role (init eps) as = some s) (hh : Along role (Honest seen) (init eps) as) {i j : Nat} {a b : Addr}
    (hd : (s.punch i).recv = .done a b j) : b = seen j i := (Placed.run h hh).done _ _ _ _ hd

/-- Two punchers, 0 at the address 10 and 1 at 11, of different endpoints. -/
def roleEx (i : Nat) : Bool := i == 0
def epsEx (i : Nat) : List Addr := if i = 0 then [11] else [10]
def seenEx (j _ : Nat) : Addr := 10 + j

/-- Puncher 0 sends its `Syn`, puncher 1 gets it and answers. -/
def answered : List Act := [.tick 0 true, .send 0 true 11 .okay, .deliver 1 0 10 true, .lock 1, .tick 1 false,
  .send 1 false 10 .okay]

/-- Somebody on the way, who cannot open the packets, passes the answer on from an address of their own: the result says to send
there. That the `Check` could be sent to that address says nothing. -/
theorem C170_counterexample_relay : ¬ C170_full := by
  intro h
  have := h roleEx epsEx seenEx (answered ++ [.deliver 0 1 666 true]) _ 0 1 11 666 rfl rfl
  simp [seenEx] at this

example : ∃ s, run roleEx (init epsEx) (answered ++ [.deliver 0 1 11 true]) = some s ∧
    Along roleEx (Honest seenEx) (init epsEx) (answered ++ [.deliver 0 1 11 true]) ∧ (s.punch 0).recv = .done 11 11 1 := by
  refine ⟨_, rfl, ?_, rfl⟩
  simp only [answered, List.cons_append, List.nil_append, Along, Honest, true_and]
  intro s1 h1; cases h1
  intro s2 h2; cases h2
  refine ⟨fun d hd => by cases hd; rfl, ?_⟩
  intro s3 h3; cases h3
  intro s4 h4; cases h4
  intro s5 h5; cases h5
  intro s6 h6; cases h6
  refine ⟨fun d hd => by cases hd; rfl, ?_⟩
  intro s7 h7; trivial

/-! ### C171: the other side can recover -/

/-- If a puncher has a result with `j`, then `j` has noted its address, whatever became of `j` and of the network
(`recovery_mode_generate_socket_by_remote_id` finds it). -/
theorem C171_recovers {role : Nat → Bool} {eps : Nat → List Addr} {as : List Act} {s : St}
    (h : run role (init eps) as = some s) {i j : Nat} (hd : Done s i j) :
    ∃ a, (s.punch j).observed.get? i = some a := by
  have inv := Inv.run h
  obtain ⟨a, b, hd⟩ := hd
  obtain ⟨⟨t, ht⟩, _⟩ := inv.done _ _ _ _ hd
  have hg := inv.hist _ ht
  simp only [Genuine, true_and] at hg
  exact Option.isSome_iff_exists.mp hg.2.1

/-- and with an honest network it is the address where the puncher is seen. -/
theorem C171_recovers_address {role : Nat → Bool} {eps : Nat → List Addr} {seen : Nat → Nat → Addr} {as : List Act} {s : St}
    (h : run role (init eps) as = some s) (hh : Along role (Honest seen) (init eps) as) {i j : Nat} (hd : Done s i j) :
    (s.punch j).observed.get? i = some (seen i j) := by
  obtain ⟨a, ha⟩ := C171_recovers h hd
  rw [ha, (Placed.run h hh).observed _ _ _ ha]

/-- A puncher answers one other only: two results that name the same puncher are of the same. -/
theorem C171_one {role : Nat → Bool} {eps : Nat → List Addr} {as : List Act} {s : St}
    (h : run role (init eps) as = some s) {i i' j : Nat} (h1 : Done s i j) (h2 : Done s i' j) : i = i' := by
  obtain ⟨a, ha⟩ := C171_recovers h h1
  obtain ⟨b, hb⟩ := C171_recovers h h2
  have := (Inv.run h).one j
  match hm : (s.punch j).observed with
  | [] => rw [hm] at ha; simp at ha
  | [(k, c)] =>
    rw [hm] at ha hb
    simp only [AMap.get?_cons, AMap.get?_nil] at ha hb
    split at ha
    · split at hb
      · rename_i e1 e2; exact e1.symm.trans e2
      · exact absurd hb (by simp)
    · exact absurd ha (by simp)
  | _ :: _ :: _ => rw [hm] at this; simp at this

/-! ### C172: both sides have a result -/

/-- The full statement: when one puncher has a result with another, the run can go on such that the other has one with it. -/
def C172_full : Prop := ∀ (role : Nat → Bool) (eps : Nat → List Addr) (as : List Act) (s : St) (i j : Nat),
  run role (init eps) as = some s → Done s i j → (s.punch j).recv ≠ .failed →
  ∃ bs s', run role s bs = some s' ∧ Done s' j i

/-- A puncher with a result stays as it is, but for its sender task, which comes to an end without sending anything. -/
theorem done_stays {role : Nat → Bool} {s s' : St} {a : Act} (hs : step role s a = some s') {i : Nat} {x y : Addr} {j : Nat}
    (hd : (s.punch i).recv = .done x y j) :
    (s'.punch i).recv = .done x y j ∧ (s'.punch i).hasSyn = (s.punch i).hasSyn ∧
      (s'.punch i).stopped = (s.punch i).stopped := by
  have t := tr_of_step hs
  clear hs
  have bar : ∀ (k : Nat) (m : Bool) (b : Bar) (eps : List Addr) (l : List Sent),
      (({ setPunch s k { (s.punch k).setBar m b with eps := eps } with hist := l } : St).punch i).recv = .done x y j ∧
      (({ setPunch s k { (s.punch k).setBar m b with eps := eps } with hist := l } : St).punch i).hasSyn = (s.punch i).hasSyn ∧
      (({ setPunch s k { (s.punch k).setBar m b with eps := eps } with hist := l } : St).punch i).stopped =
        (s.punch i).stopped := by
    intro k m b eps l
    by_cases e : i = k
    · subst e
      simp only [setPunch, if_true, setBar_hasSyn, setBar_stopped, and_self, and_true]
      rcases setBar_recv (s.punch i) m b with h | ⟨_, _, _, h, _⟩
      · rw [h, hd]
      · rw [hd] at h; exact absurd h (by simp)
    · simp [setPunch, e, hd]
  have bar' : ∀ (k : Nat) (m : Bool) (b : Bar) (l : List Sent),
      (({ setPunch s k ((s.punch k).setBar m b) with hist := l } : St).punch i).recv = .done x y j ∧
      (({ setPunch s k ((s.punch k).setBar m b) with hist := l } : St).punch i).hasSyn = (s.punch i).hasSyn ∧
      (({ setPunch s k ((s.punch k).setBar m b) with hist := l } : St).punch i).stopped = (s.punch i).stopped := by
    intro k m b l
    have := bar k m b ((s.punch k).setBar m b).eps l
    exact this
  have other : ∀ (k : Nat) (p : Punch) (l : List Sent), (s.punch k).recv ≠ .done x y j →
      (({ setPunch s k p with hist := l } : St).punch i).recv = .done x y j ∧
      (({ setPunch s k p with hist := l } : St).punch i).hasSyn = (s.punch i).hasSyn ∧
      (({ setPunch s k p with hist := l } : St).punch i).stopped = (s.punch i).stopped := by
    intro k p l hk
    have e : i ≠ k := fun e => hk (e ▸ hd)
    simp [setPunch, e, hd]
  cases t with
  | tick hb hl => exact bar' _ _ _ s.hist
  | stop hb hm hst => exact bar' _ _ _ s.hist
  | keep hb hm hst ho hr => exact bar' _ _ _ s.hist
  | endRound hb => exact bar' _ _ _ s.hist
  | drop hb hm hst hr => exact bar _ _ _ _ s.hist
  | send hb hm hst hk => exact bar' _ _ _ _
  | lock hr hm => exact other _ _ s.hist (by rw [hr]; simp)
  | ignore => exact ⟨hd, rfl, rfl⟩
  | inject => exact ⟨hd, rfl, rfl⟩
  | syn hr => exact other _ _ s.hist (by rw [hr]; simp)
  | ack hr => exact other _ _ s.hist (by rw [hr]; simp)
  | ackElse hr => exact other _ _ _ (by rw [hr]; simp)
  | reset hr => exact other _ _ s.hist (by rw [hr]; simp)
  | timeout h1 h2 => exact other _ _ s.hist (h1 x y j)

/-- A puncher that has its result before it gets a `Syn` never answers: nobody ever has a result with it. -/
theorem C172_never {role : Nat → Bool} {eps : Nat → List Addr} {as : List Act} {s : St}
    (h : run role (init eps) as = some s) {i j : Nat} (hd : Done s i j) (hn : (s.punch i).hasSyn = false)
    {bs : List Act} {s' : St} (h' : run role s bs = some s') (k : Nat) : ¬ Done s' k i := by
  obtain ⟨x, y, hd⟩ := hd
  have inv' : Inv role s' := run_inv (fun _ _ _ hp hs => hp.step hs) bs s s' (Inv.run h) h'
  have st := run_inv (P := fun s => (s.punch i).recv = .done x y j ∧ (s.punch i).hasSyn = false)
    (fun s a s' hp hs => by
      have := done_stays hs hp.1
      exact ⟨this.1, this.2.1.trans hp.2⟩) bs s s' ⟨hd, hn⟩ h'
  rintro ⟨a, b, hk⟩
  obtain ⟨⟨t, ht⟩, _⟩ := inv'.done _ _ _ _ hk
  have hg := inv'.hist _ ht
  simp only [Genuine, true_and] at hg
  exact absurd (st.2.symm.trans hg.1) (by simp)

/-- Nothing needs to be lost for that: puncher 0 gets the answer of puncher 1 before its `Syn`, and stops. -/
theorem C172_counterexample_first : ¬ C172_full := by
  intro h
  obtain ⟨bs, s', hr, hd⟩ := h roleEx epsEx (answered ++ [.deliver 0 1 11 true]) _ 0 1 rfl ⟨11, 11, rfl⟩ (by decide)
  exact C172_never (role := roleEx) (eps := epsEx) (as := answered ++ [.deliver 0 1 11 true]) (i := 0) (j := 1) rfl ⟨11, 11, rfl⟩
    rfl hr 1 hd

/-- What is left: an answer to a puncher that listens gives it a result, from whichever address it comes, if the `Check` can be
sent. -/
theorem C172_answer_partial {role : Nat → Bool} {s : St} {i j n : Nat} {sent src t : Addr} (hl : (s.punch i).recv = .listening)
    (hd : s.hist[n]? = some ⟨j, t, .sealed (.synAck j (role j) sent i)⟩) (hr : role j ≠ role i) :
    ∃ s', step role s (.deliver i n src true) = some s' ∧ (s'.punch i).recv = .done sent src j := by
  simp only [step, hl, hd, Wire.open?, handle, if_neg hr]
  refine ⟨_, rfl, ?_⟩
  split <;> simp [setPunch]

/-! ### C173: `Check` -/

/-- No `Check` is ever opened: those that are sent are not sealed, and what arrives unsealed is dropped. So the case of
`recv_until` for it is dead, and no puncher learns that its address was found reachable. -/
theorem C173_no_check {role : Nat → Bool} {eps : Nat → List Addr} {as : List Act} {s : St}
    (h : run role (init eps) as = some s) : ∀ d ∈ s.hist, d.wire.open? ≠ some .check := by
  intro d hd e
  have hg := (Inv.run h).hist d hd
  unfold Genuine at hg
  rw [open?_sealed e] at hg
  exact hg

theorem C173_dropped {role : Nat → Bool} {s s' : St} {i n : Nat} {src : Addr} {ok : Bool} {d : Sent}
    (hd : s.hist[n]? = some d) (hc : d.wire = .plain .check) (h : step role s (.deliver i n src ok) = some s') : s' = s := by
  simp only [step, hd] at h
  split at h
  · rename_i d' _ hd'
    cases hd'
    rw [hc] at h
    simp only [Wire.open?, Option.some.injEq] at h
    exact h.symm
  · exact absurd h (by simp)

/-- Not vacuous: a `Check` is sent when an answer comes from another address. -/
example : ∃ s, run roleEx (init epsEx) (answered ++ [.deliver 0 1 666 true, .deliver 1 2 10 true]) = none ∧
    run roleEx (init epsEx) (answered ++ [.deliver 0 1 666 true, .endRound 1 false, .tick 1 false, .send 1 false 10 .okay,
      .endRound 1 false, .deliver 1 2 10 true]) = some s ∧ ⟨0, 666, .plain .check⟩ ∈ s.hist := by
  refine ⟨_, rfl, rfl, by decide⟩

/-! ### C174: endpoints that cannot be reached -/

/-- The full statement (the comment of the error: "All UDP endpoints are unreachable for NAT traversal"): an endpoint that the
network says is unreachable is taken out. -/
def C174_full : Prop := ∀ (role : Nat → Bool) (eps : Nat → List Addr) (as : List Act) (s s' : St) (i : Nat) (m : Bool) (to : Addr),
  run role (init eps) as = some s → (s.punch i).stopped = false → step role s (.send i m to .unreachable) = some s' →
  to ∉ (s'.punch i).eps

/-- An endpoint stays, unless a send to it is refused because of the kind of its address, -/
theorem C174_stays {role : Nat → Bool} {i : Nat} {s s' : St} {as : List Act} (hv : ∀ a ∈ as, NoInvalid i a)
    (h : run role s as = some s') : ∀ a ∈ (s.punch i).eps, a ∈ (s'.punch i).eps := by
  induction as generalizing s with
  | nil => simp only [run, Option.some.injEq] at h; subst h; exact fun _ x => x
  | cons x as ih =>
    simp only [run] at h
    split at h
    · exact absurd h (by simp)
    · rename_i s1 h1
      intro a ha
      refine ih (fun y hy => hv y (List.mem_cons_of_mem _ hy)) h a ?_
      have hx := hv x (List.mem_cons_self ..)
      have t := tr_of_step h1
      clear h h1 ih hv
      have bar : ∀ (k : Nat) (m : Bool) (b : Bar) (l : List Sent),
          a ∈ (({ setPunch s k ((s.punch k).setBar m b) with hist := l } : St).punch i).eps := by
        intro k m b l
        by_cases e : i = k
        · subst e; simpa [setPunch, setBar_eps] using ha
        · simpa [setPunch, e] using ha
      have same : ∀ (k : Nat) (p : Punch) (l : List Sent), (∀ a ∈ (s.punch k).eps, a ∈ p.eps) →
          a ∈ (({ setPunch s k p with hist := l } : St).punch i).eps := by
        intro k p l hp
        by_cases e : i = k
        · subst e; simpa [setPunch] using hp _ ha
        · simpa [setPunch, e] using ha
      cases t with
      | tick hb hl => exact bar _ _ _ s.hist
      | stop hb hm hst => exact bar _ _ _ s.hist
      | keep hb hm hst ho hr => exact bar _ _ _ s.hist
      | endRound hb => exact bar _ _ _ s.hist
      | @drop k m to o n todo hb hm hst hr =>
        by_cases e : i = k
        · subst e
          have hne := hx rfl
          cases o with
          | okay => simp [removes] at hr
          | unreachable => exact absurd hr (by decide +kernel)
          | invalid => exact absurd rfl hne
          | other => simp [removes] at hr
        · simpa [setPunch, e] using ha
      | send hb hm hst hk => exact bar _ _ _ _
      | @lock k src sent id hr hm =>
        refine same _ _ s.hist (fun a ha => ?_)
        simp only
        split
        · exact ha
        · exact List.mem_cons_of_mem _ ha
      | ignore => exact ha
      | inject => exact ha
      | syn hr => exact same _ _ s.hist (fun _ x => x)
      | ack hr => exact same _ _ s.hist (fun _ x => x)
      | ackElse hr => exact same _ _ _ (fun _ x => x)
      | reset hr => exact same _ _ s.hist (fun _ x => x)
      | timeout h1 h2 => exact same _ _ s.hist (fun _ x => x)

/-- and a barrage with an endpoint whose address is of the right kind never fails, reachable or not. -/
theorem C174_never_fails {role : Nat → Bool} {i : Nat} {eps : Nat → List Addr} {s : St} {as : List Act}
    (hv : ∀ a ∈ as, NoInvalid i a) (he : eps i ≠ []) (h : run role (init eps) as = some s) : (s.punch i).main ≠ .failed := by
  have key : ∀ (as : List Act) (s s' : St), (∀ a ∈ as, NoInvalid i a) → (s.punch i).main ≠ .failed → (s.punch i).eps ≠ [] →
      run role s as = some s' → (s'.punch i).main ≠ .failed := by
    intro as
    induction as with
    | nil => intro s s' _ h _ hr; simp only [run, Option.some.injEq] at hr; exact hr ▸ h
    | cons x as ih =>
      intro s s' hv h he hr
      simp only [run] at hr
      split at hr
      · exact absurd hr (by simp)
      · rename_i s1 h1
        have he1 : (s1.punch i).eps ≠ [] := by
          obtain ⟨a, ha⟩ := List.exists_mem_of_ne_nil _ he
          have := C174_stays (role := role) (i := i) (s := s) (s' := s1) (as := [x])
            (fun y hy => by simp at hy; subst hy; exact hv y (List.mem_cons_self ..)) (by simp [run, h1]) a ha
          exact List.ne_nil_of_mem this
        refine ih s1 s' (fun y hy => hv y (List.mem_cons_of_mem _ hy)) ?_ he1 hr
        have t := tr_of_step h1
        clear hr h1 ih hv
        have bar : ∀ (k : Nat) (m : Bool) (b : Bar) (e : List Addr) (l : List Sent), (k = i → b ≠ .failed) →
            (({ setPunch s k { (s.punch k).setBar m b with eps := e } with hist := l } : St).punch i).main ≠ .failed := by
          intro k m b e' l hb
          by_cases e : i = k
          · subst e
            cases m with
            | true => simpa [setPunch, Punch.setBar] using hb rfl
            | false =>
              have : ((s.punch i).setBar false b).main = (s.punch i).main := by
                simp only [Punch.setBar]
                split
                · split <;> rfl
                · rfl
              simpa [setPunch, this] using h
          · simpa [setPunch, e] using h
        have bar' : ∀ (k : Nat) (m : Bool) (b : Bar) (l : List Sent), (k = i → b ≠ .failed) →
            (({ setPunch s k ((s.punch k).setBar m b) with hist := l } : St).punch i).main ≠ .failed :=
          fun k m b l hb => bar k m b ((s.punch k).setBar m b).eps l hb
        have same : ∀ (k : Nat) (p : Punch) (l : List Sent), p.main = (s.punch k).main →
            (({ setPunch s k p with hist := l } : St).punch i).main ≠ .failed := by
          intro k p l hp
          by_cases e : i = k
          · subst e; simpa [setPunch, hp] using h
          · simpa [setPunch, e] using h
        cases t with
        | tick hb hl => exact bar' _ _ _ s.hist (fun _ => by simp)
        | stop hb hm hst => exact bar' _ _ _ s.hist (fun _ => by simp)
        | keep hb hm hst ho hr => exact bar' _ _ _ s.hist (fun _ => by simp)
        | @endRound k m n hb =>
          refine bar' _ _ _ s.hist (fun e => ?_)
          subst e
          rw [if_neg he]
          split <;> simp
        | drop hb hm hst hr => exact bar _ _ _ _ s.hist (fun _ => by simp)
        | send hb hm hst hk => exact bar' _ _ _ _ (fun _ => by simp)
        | lock hr hm => exact same _ _ s.hist rfl
        | ignore => exact h
        | inject => exact h
        | syn hr => exact same _ _ s.hist rfl
        | ack hr => exact same _ _ s.hist rfl
        | ackElse hr => exact same _ _ _ rfl
        | reset hr => exact same _ _ s.hist rfl
        | timeout h1 h2 => exact same _ _ s.hist rfl
  exact key as (init eps) s hv (by simp [init]) he h

/-- An address of the wrong kind is taken out at once. -/
theorem C174_invalid {role : Nat → Bool} {s s' : St} {i : Nat} {m : Bool} {to : Addr} (hst : (s.punch i).stopped = false)
    (h : step role s (.send i m to .invalid) = some s') : to ∉ (s'.punch i).eps := by
  have t := tr_of_step h
  cases t with
  | stop hb hm h1 => rw [hst] at h1; exact absurd h1 (by simp)
  | keep hb hm h1 ho hr => exact absurd hr (by decide)
  | drop hb hm h1 hr => simp [setPunch]

/-- The text of the error is not the one that is looked for. -/
theorem C174_counterexample_text : ¬ C174_full := by
  intro h
  have := h roleEx epsEx [.tick 0 true] _ _ 0 true 11 rfl rfl rfl
  exact this (by
    rw [show removes .unreachable = false by decide +kernel]
    decide)

/-! ### C175: one barrage at a time, and silence at the end -/

/-- The two tasks are not in a round at the same time. -/
theorem C175_exclusive {role : Nat → Bool} {eps : Nat → List Addr} {as : List Act} {s : St}
    (h : run role (init eps) as = some s) (i : Nat) : ¬ ((s.punch i).main.isSending = true ∧
      ∃ b, (s.punch i).recv.bar? = some b ∧ b.isSending = true) := by
  let P : Punch → Prop := fun p => ¬ (p.main.isSending = true ∧ ∃ b, p.recv.bar? = some b ∧ b.isSending = true)
  suffices hs : ∀ i, P (s.punch i) from hs i
  refine run_inv (P := fun s => ∀ i, P (s.punch i)) ?_ as _ s ?_ h
  · intro s a s' hp hs i
    have t := tr_of_step hs
    clear hs
    have set : ∀ (k : Nat) (p : Punch) (l : List Sent), (P (s.punch k) → P p) →
        P (({ setPunch s k p with hist := l } : St).punch i) := by
      intro k p l hpp
      by_cases e : i = k
      · subst e; simpa [setPunch] using hpp (hp i)
      · simpa [setPunch, e] using hp i
    -- a move to a state in which the lock is not held, or of the task that holds it
    have bar : ∀ (k : Nat) (m : Bool) (b : Bar) (e : List Addr) (l : List Sent),
        (b.isSending = true → (s.punch k).locked m = false ∨ ∃ b0, (s.punch k).bar? m = some b0 ∧ b0.isSending = true) →
        P (({ setPunch s k { (s.punch k).setBar m b with eps := e } with hist := l } : St).punch i) := by
      intro k m b e l hb
      refine set k _ l ?_
      generalize (s.punch k) = p at *
      rintro hP ⟨h1, c, h2, h3⟩
      apply hP
      cases m with
      | true =>
        have h1 : b.isSending = true := by simpa [Punch.setBar] using h1
        have h2 : p.recv.bar? = some c := by simpa [Punch.setBar] using h2
        refine ⟨?_, c, h2, h3⟩
        rcases hb h1 with hl | ⟨b0, h4, h5⟩
        · simp [Punch.locked, Punch.bar?, h2, h3] at hl
        · simp only [Punch.bar?, Option.some.injEq] at h4; rw [h4]; exact h5
      | false =>
        have hm : ((p.setBar false b).main) = p.main := by
          simp only [Punch.setBar]
          split
          · split <;> rfl
          · rfl
        have hmain : p.main.isSending = true := by rw [← hm]; exact h1
        have h2 : (p.setBar false b).recv.bar? = some c := h2
        have key : c = b ∧ ∃ b0, p.recv.bar? = some b0 := by
          simp only [Punch.setBar] at h2
          split at h2
          · rename_i a id b1 hr
            refine ⟨?_, b1, by rw [hr]; rfl⟩
            split at h2 <;> simp_all [Recv.bar?]
          · rename_i hr
            cases hq : p.recv with
            | replying a id b1 => exact absurd hq (hr a id b1)
            | _ => rw [hq] at h2; simp [Recv.bar?] at h2
        obtain ⟨rfl, b0, hb0⟩ := key
        rcases hb h3 with hl | ⟨b1, h4, h5⟩
        · simp [Punch.locked, Punch.bar?, hmain] at hl
        · exact ⟨hmain, b1, h4, h5⟩
    have bar' : ∀ (k : Nat) (m : Bool) (b : Bar) (l : List Sent),
        (b.isSending = true → (s.punch k).locked m = false ∨ ∃ b0, (s.punch k).bar? m = some b0 ∧ b0.isSending = true) →
        P (({ setPunch s k ((s.punch k).setBar m b) with hist := l } : St).punch i) :=
      fun k m b l hb => bar k m b ((s.punch k).setBar m b).eps l hb
    have quiet : ∀ (k : Nat) (p : Punch) (l : List Sent), (∀ b, p.recv.bar? = some b → b.isSending = false) →
        P (({ setPunch s k p with hist := l } : St).punch i) :=
      fun k p l hq => set k p l (fun _ ⟨_, b, h1, h2⟩ => by rw [hq b h1] at h2; exact absurd h2 (by simp))
    cases t with
    | tick hb hl => exact bar' _ _ _ s.hist (fun _ => .inl hl)
    | stop hb hm hst => exact bar' _ _ _ s.hist (fun e => absurd e (by simp [Bar.isSending]))
    | keep hb hm hst ho hr => exact bar' _ _ _ s.hist (fun _ => .inr ⟨_, hb, rfl⟩)
    | endRound hb =>
      refine bar' _ _ _ s.hist (fun e => ?_)
      split at e
      · exact absurd e (by simp [Bar.isSending])
      · split at e <;> exact absurd e (by simp [Bar.isSending])
    | drop hb hm hst hr => exact bar _ _ _ _ s.hist (fun _ => .inr ⟨_, hb, rfl⟩)
    | send hb hm hst hk => exact bar' _ _ _ _ (fun _ => .inr ⟨_, hb, rfl⟩)
    | lock hr hm => exact quiet _ _ s.hist (fun b e => by simp [Recv.bar?] at e; subst e; rfl)
    | ignore => exact hp i
    | inject => exact hp i
    | syn hr => exact quiet _ _ s.hist (fun b e => by simp [Recv.bar?] at e)
    | ack hr => exact quiet _ _ s.hist (fun b e => by simp [Recv.bar?] at e)
    | ackElse hr => exact quiet _ _ _ (fun b e => by simp [Recv.bar?] at e)
    | reset hr => exact quiet _ _ s.hist (fun b e => by simp [Recv.bar?] at e)
    | timeout h1 h2 => exact quiet _ _ s.hist (fun b e => by simp [Recv.bar?] at e)
  · intro i; simp [P, init, Bar.isSending]

/-- A puncher with a result sends nothing more. -/
theorem C175_silent {role : Nat → Bool} {eps : Nat → List Addr} {as : List Act} {s : St}
    (h : run role (init eps) as = some s) {i j : Nat} (hd : Done s i j) {bs : List Act} {s' : St}
    (h' : run role s bs = some s') : s'.hist.filter (·.src = i) = s.hist.filter (·.src = i) := by
  obtain ⟨x, y, hd⟩ := hd
  have hst0 := ((Inv.run h).done _ _ _ _ hd).2
  refine (run_inv (P := fun s1 => (s1.punch i).recv = .done x y j ∧ (s1.punch i).stopped = true ∧
    s1.hist.filter (·.src = i) = s.hist.filter (·.src = i)) ?_ bs s s' ⟨hd, hst0, rfl⟩ h').2.2
  intro s1 a s2 ⟨h1, h2, h3⟩ hs
  obtain ⟨k1, _, k3⟩ := done_stays hs h1
  refine ⟨k1, k3.trans h2, ?_⟩
  have t := tr_of_step hs
  cases t with
  | @send k m to n todo p hb hm hst hk =>
    have e : k ≠ i := fun e => by subst e; rw [h2] at hst; exact absurd hst (by simp)
    simp [List.filter_append, h3, e]
  | @ackElse k n src d id sent hr hd hw hsrc =>
    have e : k ≠ i := fun e => by subst e; rw [h1] at hr; exact absurd hr (by simp)
    simp [List.filter_append, h3, e]
  | _ => exact h3

/-- What a barrage still has to send to an address that stays in the set. -/
def due (a : Addr) : Bar → Nat
  | .tick n => n
  | .sending n todo => n - 1 + if a ∈ todo then 1 else 0
  | _ => 0

def Bar.pos : Bar → Prop
  | .tick n => 1 ≤ n
  | .sending n _ => 1 ≤ n
  | _ => True

theorem due_step {role : Nat → Bool} {s s' : St} {x : Act} (hs : step role s x = some s') (i : Nat) (a : Addr)
    (hp : (s.punch i).main.pos) : (s'.punch i).main.pos ∧
      syns role s' i a + due a (s'.punch i).main ≤ syns role s i a + due a (s.punch i).main ∧
      (AllSent i x → (s'.punch i).stopped = false → a ∈ (s.punch i).eps → (s.punch i).stopped = false ∧ a ∈ (s'.punch i).eps ∧
        syns role s' i a + due a (s'.punch i).main = syns role s i a + due a (s.punch i).main) := by
  have t := tr_of_step hs
  clear hs
  -- another puncher, or a step that leaves the barrage, the stop and the endpoints
  have same : ∀ (k : Nat) (p : Punch), (k = i → p.main = (s.punch i).main ∧ (p.stopped = false → (s.punch i).stopped = false) ∧
        ∀ a ∈ (s.punch i).eps, a ∈ p.eps) → ∀ l : List Sent, (∀ d ∈ l, d ≠ ⟨i, a, .sealed (.syn i (role i) a)⟩) →
      ((({ setPunch s k p with hist := s.hist ++ l } : St).punch i).main.pos) ∧
      syns role { setPunch s k p with hist := s.hist ++ l } i a + due a (({ setPunch s k p with hist := s.hist ++ l } : St).punch i).main
        = syns role s i a + due a (s.punch i).main ∧
      ((({ setPunch s k p with hist := s.hist ++ l } : St).punch i).stopped = false → a ∈ (s.punch i).eps →
        (s.punch i).stopped = false ∧ a ∈ (({ setPunch s k p with hist := s.hist ++ l } : St).punch i).eps) := by
    intro k p hk l hl
    have hc : syns role { setPunch s k p with hist := s.hist ++ l } i a = syns role s i a := by
      unfold syns
      rw [List.count_append, List.count_eq_zero.mpr (fun h => hl _ h rfl)]; rfl
    rw [hc]
    by_cases e : i = k
    · subst e
      obtain ⟨h1, h2, h3⟩ := hk rfl
      simp only [setPunch, if_true, h1]
      exact ⟨hp, trivial, fun h h' => ⟨h2 h, h3 a h'⟩⟩
    · simp only [setPunch, e, if_false]
      exact ⟨hp, trivial, fun h h' => ⟨h, h'⟩⟩
  have same' : ∀ (k : Nat) (p : Punch), (k = i → p.main = (s.punch i).main ∧ (p.stopped = false → (s.punch i).stopped = false) ∧
        ∀ a ∈ (s.punch i).eps, a ∈ p.eps) → ∀ l : List Sent, (∀ d ∈ l, d ≠ ⟨i, a, .sealed (.syn i (role i) a)⟩) →
      ((({ setPunch s k p with hist := s.hist ++ l } : St).punch i).main.pos) ∧
      syns role { setPunch s k p with hist := s.hist ++ l } i a + due a (({ setPunch s k p with hist := s.hist ++ l } : St).punch i).main
        ≤ syns role s i a + due a (s.punch i).main ∧
      (AllSent i x → (({ setPunch s k p with hist := s.hist ++ l } : St).punch i).stopped = false → a ∈ (s.punch i).eps →
        (s.punch i).stopped = false ∧ a ∈ (({ setPunch s k p with hist := s.hist ++ l } : St).punch i).eps ∧
        syns role { setPunch s k p with hist := s.hist ++ l } i a + due a (({ setPunch s k p with hist := s.hist ++ l } : St).punch i).main
        = syns role s i a + due a (s.punch i).main) := by
    intro k p hk l hl
    obtain ⟨h1, h2, h3⟩ := same k p hk l hl
    exact ⟨h1, by omega, fun _ h h' => ⟨(h3 h h').1, (h3 h h').2, h2⟩⟩
  have same0 : ∀ (k : Nat) (p : Punch), (k = i → p.main = (s.punch i).main ∧ (p.stopped = false → (s.punch i).stopped = false) ∧
        ∀ a ∈ (s.punch i).eps, a ∈ p.eps) →
      (((setPunch s k p).punch i).main.pos) ∧
      syns role (setPunch s k p) i a + due a ((setPunch s k p).punch i).main
        ≤ syns role s i a + due a (s.punch i).main ∧
      (AllSent i x → ((setPunch s k p).punch i).stopped = false → a ∈ (s.punch i).eps →
        (s.punch i).stopped = false ∧ a ∈ ((setPunch s k p).punch i).eps ∧
        syns role (setPunch s k p) i a + due a ((setPunch s k p).punch i).main
        = syns role s i a + due a (s.punch i).main) := by
    intro k p hk
    have := same' k p hk [] (by simp)
    rwa [List.append_nil] at this
  have mainF : ∀ (p : Punch) (b : Bar), (p.setBar false b).main = p.main := by
    intro p b
    simp only [Punch.setBar]
    split
    · split <;> rfl
    · rfl
  -- a move of the receiver's barrage
  have barF : ∀ (k : Nat) (b : Bar), k = i → ((s.punch k).setBar false b).main = (s.punch i).main ∧
      (((s.punch k).setBar false b).stopped = false → (s.punch i).stopped = false) ∧
      ∀ a ∈ (s.punch i).eps, a ∈ ((s.punch k).setBar false b).eps := by
    rintro k b rfl
    exact ⟨mainF _ _, fun h => by rwa [setBar_stopped] at h, fun a h => by rwa [setBar_eps]⟩
  have filt : ∀ (to : Addr) (todo : List Addr), a ∈ todo.filter (· ≠ to) ↔ a ∈ todo ∧ a ≠ to := by
    intro to todo; simp [List.mem_filter]
  cases t with
  | @tick k m n hb hl =>
    cases m with
    | false => exact same0 k _ (barF k _)
    | true =>
      by_cases e : k = i
      · subst e
        simp only [Punch.bar?, Option.some.injEq] at hb
        have hn : 1 ≤ n := by rw [hb] at hp; exact hp
        simp only [setPunch_same, Punch.setBar, syns, setPunch_hist, hb, due]
        refine ⟨hn, ?_, ?_⟩
        · split <;> omega
        · intro _ h1 h2
          rw [if_pos h2]
          exact ⟨h1, h2, by omega⟩
      · exact same0 k _ (fun h => absurd h e)
  | @stop k m to o n todo hb hm hst =>
    cases m with
    | false => exact same0 k _ (barF k _)
    | true =>
      by_cases e : k = i
      · subst e
        simp only [setPunch_same, Punch.setBar, syns, setPunch_hist, due]
        exact ⟨trivial, by omega, fun _ h1 => by rw [hst] at h1; exact absurd h1 (by simp)⟩
      · exact same0 k _ (fun h => absurd h e)
  | @send k m to n todo p hb hm hst hk =>
    cases m with
    | false =>
      refine same' k _ (barF k _) [⟨k, to, .sealed p⟩] ?_
      intro d hd
      simp only [List.mem_cons, List.not_mem_nil, or_false] at hd
      subst hd
      intro e
      simp only [Sent.mk.injEq, Wire.sealed.injEq] at e
      obtain ⟨_, _, rfl⟩ := e
      simp only [Punch.packet] at hk
      split at hk <;> simp at hk
    | true =>
      simp only [Punch.packet, Option.some.injEq] at hk
      subst hk
      by_cases e : k = i
      · subst e
        simp only [Punch.bar?, Option.some.injEq] at hb
        have hn : 1 ≤ n := by rw [hb] at hp; exact hp
        have hc : syns role { setPunch s k ((s.punch k).setBar true (.sending n (todo.filter (· ≠ to)))) with
            hist := s.hist ++ [⟨k, to, .sealed (.syn k (role k) to)⟩] } k a = syns role s k a + if a = to then 1 else 0 := by
          unfold syns
          rw [List.count_append]
          congr 1
          by_cases e : a = to
          · subst e; simp
          · have e' : to ≠ a := fun h => e h.symm
            simp [e, e']
        rw [hc]
        have hd : due a (.sending n (todo.filter (· ≠ to))) + (if a = to then 1 else 0) = due a (.sending n todo) := by
          simp only [due, filt]
          by_cases e : a = to
          · subst e; simp [hm]
          · simp [e]
        have hmain : (({ setPunch s k ((s.punch k).setBar true (.sending n (todo.filter (· ≠ to)))) with
            hist := s.hist ++ [⟨k, to, .sealed (.syn k (role k) to)⟩] } : St).punch k).main = .sending n (todo.filter (· ≠ to)) := by
          simp [setPunch, Punch.setBar]
        rw [hmain, hb]
        refine ⟨hn, by omega, fun _ h1 h2 => ⟨hst, ?_, by omega⟩⟩
        simpa [setPunch, Punch.setBar] using h2
      · refine same' k _ (fun h => absurd h e) [⟨k, to, .sealed (.syn k (role k) to)⟩] ?_
        intro d hd
        simp only [List.mem_cons, List.not_mem_nil, or_false] at hd
        subst hd
        intro h
        simp only [Sent.mk.injEq] at h
        exact e h.1
  | @keep k m to o n todo hb hm hst ho hr =>
    cases m with
    | false => exact same0 k _ (barF k _)
    | true =>
      by_cases e : k = i
      · subst e
        simp only [Punch.bar?, Option.some.injEq] at hb
        have hn : 1 ≤ n := by rw [hb] at hp; exact hp
        simp only [setPunch_same, Punch.setBar, syns, setPunch_hist, due, hb, filt]
        refine ⟨hn, ?_, fun h => absurd (h rfl) ho⟩
        by_cases h1 : a ∈ todo <;> by_cases h2 : a = to <;> simp [h1, h2] <;> omega
      · exact same0 k _ (fun h => absurd h e)
  | @drop k m to o n todo hb hm hst hr =>
    have ho : o ≠ .okay := by rintro rfl; exact absurd hr (by simp [removes])
    by_cases e : k = i
    · subst e
      cases m with
      | false =>
        simp only [setPunch_same, mainF, syns, setPunch_hist]
        exact ⟨hp, by omega, fun h => absurd (h rfl) ho⟩
      | true =>
        simp only [Punch.bar?, Option.some.injEq] at hb
        have hn : 1 ≤ n := by rw [hb] at hp; exact hp
        simp only [setPunch_same, Punch.setBar, syns, setPunch_hist, due, hb, filt]
        refine ⟨hn, ?_, fun h => absurd (h rfl) ho⟩
        by_cases h1 : a ∈ todo <;> by_cases h2 : a = to <;> simp [h1, h2] <;> omega
    · exact same0 k _ (fun h => absurd h e)
  | @endRound k m n hb =>
    cases m with
    | false => exact same0 k _ (barF k _)
    | true =>
      by_cases e : k = i
      · subst e
        simp only [Punch.bar?, Option.some.injEq] at hb
        have hn : 1 ≤ n := by rw [hb] at hp; exact hp
        simp only [setPunch_same, Punch.setBar, syns, setPunch_hist, hb]
        refine ⟨?_, ?_, fun _ h1 h2 => ⟨h1, h2, ?_⟩⟩
        · split
          · trivial
          · split
            · trivial
            · simp only [Bar.pos]; omega
        · split
          · simp [due]
          · split <;> simp [due]
        · rw [if_neg (fun h => by rw [h] at h2; exact absurd h2 (by simp))]
          split
          · simp only [due, List.not_mem_nil, if_false]; omega
          · simp [due]
      · exact same0 k _ (fun h => absurd h e)
  | @lock k src sent id hr hm =>
    refine same0 k _ (fun e => ?_)
    subst e
    refine ⟨rfl, fun h => h, fun a h => ?_⟩
    show a ∈ (if src ∈ (s.punch k).eps then (s.punch k).eps else src :: (s.punch k).eps)
    split
    · exact h
    · exact List.mem_cons_of_mem _ h
  | ignore => exact ⟨hp, Nat.le_refl _, fun _ h1 h2 => ⟨h1, h2, rfl⟩⟩
  | inject => exact ⟨hp, Nat.le_refl _, fun _ h1 h2 => ⟨h1, h2, rfl⟩⟩
  | @syn k n src ok d id sent hr => exact same0 k _ (fun e => by subst e; exact ⟨rfl, fun h => h, fun _ h => h⟩)
  | @ack k n src ok d id sent hr =>
    exact same0 k _ (fun e => by subst e; exact ⟨rfl, fun h => absurd h (by simp), fun _ h => h⟩)
  | @ackElse k n src d id sent hr =>
    exact same' k _ (fun e => by subst e; exact ⟨rfl, fun h => absurd h (by simp), fun _ h => h⟩) [⟨k, src, .plain .check⟩]
      (fun d hd => by simp at hd; subst hd; simp)
  | @reset k hr => exact same0 k _ (fun e => by subst e; exact ⟨rfl, fun h => h, fun _ h => h⟩)
  | @timeout k hr => exact same0 k _ (fun e => by subst e; exact ⟨rfl, fun h => h, fun _ h => h⟩)

theorem stopped_stays {role : Nat → Bool} {s s' : St} {x : Act} (hs : step role s x = some s') {i : Nat}
    (h : (s.punch i).stopped = true) : (s'.punch i).stopped = true := by
  have t := tr_of_step hs
  clear hs
  have set : ∀ (k : Nat) (p : Punch) (l : List Sent), (k = i → p.stopped = true) →
      (({ setPunch s k p with hist := l } : St).punch i).stopped = true := by
    intro k p l hp
    by_cases e : i = k
    · subst e; simpa [setPunch] using hp rfl
    · simpa [setPunch, e] using h
  cases t with
  | tick | stop | keep | endRound => exact set _ _ s.hist (fun e => by subst e; rw [setBar_stopped]; exact h)
  | drop => exact set _ _ s.hist (fun e => by subst e; exact (setBar_stopped ..).trans h)
  | send => exact set _ _ _ (fun e => by subst e; rw [setBar_stopped]; exact h)
  | lock | syn | reset | timeout => exact set _ _ s.hist (fun e => by subst e; exact h)
  | ack => exact set _ _ s.hist (fun _ => rfl)
  | ackElse => exact set _ _ _ (fun _ => rfl)
  | ignore | inject => exact h

/-- A puncher sends its `Syn` to an address at most twice. -/
theorem C175_twice {role : Nat → Bool} {eps : Nat → List Addr} {as : List Act} {s : St}
    (h : run role (init eps) as = some s) (i : Nat) (a : Addr) : syns role s i a ≤ 2 := by
  have := run_inv (P := fun s => (s.punch i).main.pos ∧ syns role s i a + due a (s.punch i).main ≤ 2)
    (fun s x s' hP hs => by
      obtain ⟨h1, h2, _⟩ := due_step hs i a hP.1
      exact ⟨h1, Nat.le_trans h2 hP.2⟩) as _ s ⟨by simp [init, Bar.pos], by simp [init, due, syns]⟩ h
  omega

/-- If its sends work and no answer has come, it has sent it to each of its endpoints just twice when its barrage is over. -/
theorem C175_barrage {role : Nat → Bool} {eps : Nat → List Addr} {as : List Act} {s : St}
    (h : run role (init eps) as = some s) {i : Nat} {a : Addr} (ha : a ∈ eps i) (hs : ∀ x ∈ as, AllSent i x)
    (hst : (s.punch i).stopped = false) (hm : (s.punch i).main = .okay ∨ (s.punch i).main = .failed) : syns role s i a = 2 := by
  have key : ∀ (as : List Act) (s0 : St), run role s0 as = some s → (∀ x ∈ as, AllSent i x) → (s0.punch i).main.pos →
      ((s0.punch i).stopped = false → a ∈ (s0.punch i).eps ∧ syns role s0 i a + due a (s0.punch i).main = 2) →
      syns role s i a + due a (s.punch i).main = 2 := by
    intro as
    induction as with
    | nil =>
      intro s0 h _ _ hP
      simp only [run, Option.some.injEq] at h
      subst h
      exact (hP hst).2
    | cons x as ih =>
      intro s0 h hx hp hP
      simp only [run] at h
      split at h
      · exact absurd h (by simp)
      · rename_i s1 hs1
        have d := due_step hs1 i a hp
        refine ih s1 h (fun y hy => hx y (by simp [hy])) d.1 (fun h1 => ?_)
        have hst1 : (s0.punch i).stopped = false := by
          cases hh : (s0.punch i).stopped with
          | false => rfl
          | true =>
            have := stopped_stays hs1 hh
            rw [h1] at this; exact absurd this (by simp)
        obtain ⟨ha0, hc⟩ := hP hst1
        obtain ⟨_, h2, h3⟩ := d.2.2 (hx x (by simp)) h1 ha0
        exact ⟨h2, h3.trans hc⟩
  have := key as _ h hs (by simp [init, Bar.pos]) (fun _ => ⟨ha, by simp [init, due, syns]⟩)
  rcases hm with e | e <;> rw [e] at this <;> simpa [due] using this

example : ∃ s, run (fun _ => true) (init fun _ => [5, 6]) [.tick 0 true, .send 0 true 5 .okay, .send 0 true 6 .okay, .endRound 0 true,
    .tick 0 true, .send 0 true 6 .okay, .send 0 true 5 .okay, .endRound 0 true] = some s ∧ (s.punch 0).stopped = false ∧
    (s.punch 0).main = .okay := ⟨_, rfl, rfl, rfl⟩

end Verif.Puncher

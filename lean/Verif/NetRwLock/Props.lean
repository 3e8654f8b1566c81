import Verif.NetRwLock.Sim
import Verif.NetRwLock.Search

/-!
Properties C95-C98: the network readers-writer lock.
-/
namespace Verif.NetRwLock

theorem sameKind_ok (s : Sys) (v : Nat) (ta tb : Int) (z : Shape) (h : Rel s v ta tb z) (hs : SameKind s) :
    z.sameKind = true := by
  unfold Shape.sameKind
  rw [stA h, stB h, wants_abs, wants_abs]
  split
  · rename_i k k' h1 h2; exact decide_eq_true (hs k k' h1 h2)
  · rfl

theorem good_run (v : Nat) (ops : List Op) (h : Always SameKind v ops) :
    ∃ ta tb z, Rel (after v ops) (lastLeft (init v) v ops) ta tb z ∧ z.good = true := by
  obtain ⟨C, h0, hC⟩ := explore_sound encShape decShape (shapeSteps Shape.sameKind) Shape.good 10000 (initShape true)
    shapes_sameKind (by decide +kernel)
  obtain ⟨ta, tb, z, hr, hz⟩ := sim_run (P := SameKind) sameKind_ok (fun z hz => (hC z hz).2) ops (rel_init v) h0 h
  exact ⟨ta, tb, z, hr, (hC z hz).1⟩

/-- **C95** (partial: the endpoints never wait for locks of different kinds at the same time). While one endpoint has a
write guard, the other has no guard at all. -/
theorem C95_exclusion_partial (v : Nat) (ops : List Op) (h : Always SameKind v ops) :
    ¬ ((after v ops).a.writer = true ∧ (after v ops).b.holds) ∧
    ¬ ((after v ops).b.writer = true ∧ (after v ops).a.holds) := by
  obtain ⟨ta, tb, z, hr, hg⟩ := good_run v ops h
  simp only [Shape.good, Bool.and_eq_true, Bool.not_eq_true', Bool.and_eq_false_iff] at hg
  rw [stA hr, stB hr, writer_abs, writer_abs] at hg
  constructor
  · rintro ⟨h1, h2⟩
    have h2 := (holds_abs _).2 h2
    simp [h1, h2] at hg
  · rintro ⟨h1, h2⟩
    have h2 := (holds_abs _).2 h2
    simp [h1, h2] at hg

/-- **C96** (partial: the endpoints never wait for locks of different kinds at the same time). Whoever has a guard sees the
value most recently written through a write guard, at either endpoint. -/
theorem C96_latest_value_partial (v : Nat) (ops : List Op) (h : Always SameKind v ops) :
    ((after v ops).a.holds → (after v ops).a.val = lastLeft (init v) v ops) ∧
    ((after v ops).b.holds → (after v ops).b.val = lastLeft (init v) v ops) := by
  obtain ⟨ta, tb, z, hr, hg⟩ := good_run v ops h
  simp only [Shape.good, Bool.and_eq_true, Bool.or_eq_true, Bool.not_eq_true'] at hg
  rw [stA hr, stB hr] at hg
  constructor
  · intro h1
    have h1 := (holds_abs _).2 h1
    exact hr.sa.fx (by simpa [h1, Shape.sideA] using hg.1.1.1.2)
  · intro h1
    have h1 := (holds_abs _).2 h1
    exact hr.sb.fx (by simpa [h1, Shape.sideB] using hg.1.1.2)

theorem act_panics (i : Bool) (x : Node) (inbox : List Msg) (o : Act) (h : (absSt x.st).wrong = false)
    (hp : x.panics = false) : (act i x inbox o).1.panics = false := by
  obtain ⟨st, val, pan⟩ := x
  simp only at hp h
  subst hp
  cases o with
  | request k t => rfl
  | write w => cases st <;> first | rfl | cases h
  | release k =>
    cases k with
    | read =>
      cases st with
      | reading n => cases n <;> rfl
      | lent k n => cases k <;> cases n <;> rfl
      | dropping k j o => rcases o with _ | _ | n <;> rfl
      | dropYield k o => rcases o with _ | _ | n <;> rfl
      | _ => first | rfl | cases h
    | write => cases st <;> rfl
  | recv =>
    cases inbox with
    | nil => rfl
    | cons m rest =>
      cases st with
      | idle => cases m <;> rfl
      | active w k t =>
        cases m <;> simp only [act, recv, recvActive] <;> try rfl
        split <;> try rfl
        split <;> rfl
      | losing w k t => cases m <;> cases k <;> rfl
      | lent k n => cases m <;> cases k <;> rfl
      | dropYield k o => cases m <;> cases k <;> rfl
      | dropping k j o => cases m <;> cases j <;> rfl
      | _ => rfl

/-- **C97** (partial: the endpoints never wait for locks of different kinds at the same time). Using and dropping guards
never panics. -/
theorem C97_no_panic_partial (v : Nat) (ops : List Op) (h : Always SameKind v ops) :
    (after v ops).a.panics = false ∧ (after v ops).b.panics = false := by
  suffices H : ∀ n, n ≤ ops.length → (after v (ops.take n)).a.panics = false ∧ (after v (ops.take n)).b.panics = false by
    simpa using H ops.length (Nat.le_refl _)
  intro n
  induction n with
  | zero => intro _; exact ⟨rfl, rfl⟩
  | succ n ih =>
    intro hn
    have hi := ih (by omega)
    obtain ⟨ta, tb, z, hr, hg⟩ := good_run v (ops.take n) (fun pre post e => h pre (post ++ ops.drop n) (by
      rw [← List.append_assoc, ← e, List.take_append_drop]))
    simp only [Shape.good, Bool.and_eq_true, Bool.not_eq_true'] at hg
    rw [stA hr, stB hr] at hg
    rw [List.take_succ_eq_append_getElem (by omega)]
    simp only [after, List.foldl_append, List.foldl_cons, List.foldl_nil]
    change (step (after v (ops.take n)) _).a.panics = false ∧ (step (after v (ops.take n)) _).b.panics = false
    cases ops[n] with
    | a o => exact ⟨act_panics _ _ _ o hg.1.2 hi.1, hi.2⟩
    | b o => exact ⟨hi.1, act_panics _ _ _ o hg.2 hi.2⟩

/-! ### Nobody is left waiting -/

theorem mild_ok (s : Sys) (v : Nat) (ta tb : Int) (z : Shape) (h : Rel s v ta tb z) (hs : OnlyReads s ∧ NoShared s) :
    z.mild = true := by
  obtain ⟨h1, h2, h3⟩ := hs
  have e1 : z.onlyReads = true := by
    unfold Shape.onlyReads
    rw [stA h, stB h, wants_abs, wants_abs]
    split
    · rename_i k k' e1 e2
      obtain ⟨rfl, rfl⟩ := h1 k k' e1 e2
      rfl
    · rfl
  have e2 : ∀ x : Node, (∀ k n, x.st = .lent k n → n = 0) → (absSt x.st).shared = false := fun x hx => by
    obtain ⟨st, val, pan⟩ := x
    cases st with
    | lent k n => rw [hx k n rfl]; rfl
    | _ => rfl
  simp only [Shape.mild, e1, stA h, stB h, e2 _ h2, e2 _ h3, Bool.not_false, Bool.and_self]

/-- **C98** (partial: if both endpoints wait for a lock, both want to read, and no local reader uses a lock that is lent to
the other endpoint). When no guard is held and no packet is on the way, nobody waits and the lock is free. -/
theorem C98_at_rest_partial (v : Nat) (ops : List Op) (h : Always (fun s => OnlyReads s ∧ NoShared s) v ops)
    (hq : Quiescent (after v ops)) : (after v ops).a.st = .idle ∧ (after v ops).b.st = .idle := by
  obtain ⟨C, h0, hC⟩ := explore_sound encShape decShape (shapeSteps Shape.mild) Shape.restful 10000 (initShape true)
    shapes_restful (by decide +kernel)
  obtain ⟨ta, tb, z, hr, hz⟩ := sim_run (P := fun s => OnlyReads s ∧ NoShared s) mild_ok (fun z hz => (hC z hz).2) ops
    (rel_init v) h0 h
  have hg := (hC z hz).1
  obtain ⟨q1, q2, q3, q4⟩ := hq
  have a1 := hr.sa.inb
  have a2 := hr.sa.out
  change (after v ops).toA = [] at q3
  change LRel _ _ (after v ops).toA z.toA at a1
  change LRel _ _ (after v ops).toB z.toB at a2
  rw [q3] at a1
  rw [q4] at a2
  have e1 : z.toA = [] := by cases hzA : z.toA with
    | nil => rfl
    | cons _ _ => rw [hzA] at a1; exact a1.elim
  have e2 : z.toB = [] := by cases hzB : z.toB with
    | nil => rfl
    | cons _ _ => rw [hzB] at a2; exact a2.elim
  have f1 : z.a.holds = false := by
    rw [stA hr, Bool.eq_false_iff]; exact fun e => q1 ((holds_abs _).1 e)
  have f2 : z.b.holds = false := by
    rw [stB hr, Bool.eq_false_iff]; exact fun e => q2 ((holds_abs _).1 e)
  simp only [Shape.restful, e1, e2, f1, f2, List.isEmpty_nil, Bool.not_true, Bool.false_or, Bool.and_eq_true,
    decide_eq_true_eq] at hg
  have idle : ∀ st : St, absSt st = .idle → st = .idle := fun st e => by cases st <;> first | rfl | cases e
  exact ⟨idle _ (stA hr ▸ hg.1), idle _ (stB hr ▸ hg.2)⟩

/-- **C98** (partial, as above). When no guard is held and no packet is on the way, a request of either endpoint, of either
kind, is granted as soon as the other endpoint has read it. -/
theorem C98_reacquire_partial (v : Nat) (ops : List Op) (h : Always (fun s => OnlyReads s ∧ NoShared s) v ops)
    (hq : Quiescent (after v ops)) (k : Kind) (t : Int) :
    (after v (ops ++ [.a (.request k t), .b .recv, .a .recv])).a.holds ∧
    (k = .write → (after v (ops ++ [.a (.request k t), .b .recv, .a .recv])).a.writer = true) ∧
    (after v (ops ++ [.b (.request k t), .a .recv, .b .recv])).b.holds ∧
    (k = .write → (after v (ops ++ [.b (.request k t), .a .recv, .b .recv])).b.writer = true) := by
  obtain ⟨h1, h2⟩ := C98_at_rest_partial v ops h hq
  obtain ⟨_, _, h3, h4⟩ := hq
  have e : ∀ l, after v (ops ++ l) = l.foldl step (after v ops) := fun l => by simp [after]
  rw [e, e]
  generalize after v ops = s at *
  obtain ⟨⟨sa, va, pa⟩, ⟨sb, vb, pb⟩, qa, qb⟩ := s
  simp only at h1 h2 h3 h4
  subst h1 h2 h3 h4
  cases k
  · exact ⟨Or.inr (Nat.succ_pos 0), (fun e => by cases e), Or.inr (Nat.succ_pos 0), (fun e => by cases e)⟩
  · exact ⟨Or.inl rfl, fun _ => rfl, Or.inl rfl, fun _ => rfl⟩

/-! ### Counterexamples -/

/-- A reads, B asks to write later and loses; its holder becomes a `Read` holder and stays one. When A asks to read again,
"both win". The request times are increasing. -/
def writerAmongReaders : List Op :=
  [.a (.request .read 1), .b (.request .write 2), .a .recv, .a (.release .read), .b .recv, .a .recv, .b .recv, .b .recv,
   .a .recv, .a (.request .read 3), .b .recv, .b .recv, .a .recv]

/-- **C95 is false.** B has a write guard while A has a read guard. -/
theorem C95_counterexample :
    (after 0 writerAmongReaders).b.writer = true ∧ 0 < (after 0 writerAmongReaders).a.readers := by decide

/-- As above, but A asks to write: B gets its guard, drops it (releasing a read lock and leaving its holder in the store),
A gets the write lock, and a reader at B still enters through the store. -/
def readerDuringWrite : List Op :=
  [.a (.request .read 1), .b (.request .write 2), .a .recv, .a (.release .read), .b .recv, .a .recv, .b .recv, .b .recv,
   .a .recv, .a (.request .write 3), .b .recv, .b .recv, .a .recv, .b (.release .write), .a .recv, .b (.request .read 4),
   .a (.write 7)]

/-- **C95, C96 are false.** A writes 7 while B reads, and B sees 0. -/
theorem C96_counterexample :
    (after 0 readerDuringWrite).a.st = .writing ∧ (after 0 readerDuringWrite).b.readers = 1 ∧
    (after 0 readerDuringWrite).b.val = 0 ∧ lastLeft (init 0) 0 readerDuringWrite = 7 ∧
    (after 0 readerDuringWrite).a.panics = false ∧ (after 0 readerDuringWrite).b.panics = false := by decide

/-- A asks to write, B to read later; B loses and its holder becomes a `Write` holder. After A has released, B is granted
its request when A asks again; the read guard is dropped. -/
def panickingDrop : List Op :=
  [.a (.request .write 1), .b (.request .read 2), .a .recv, .a (.release .write), .b .recv, .a .recv, .b .recv, .b .recv,
   .a .recv, .a (.request .read 3), .b .recv, .b (.release .read)]

/-- **C97 is false.** Dropping a read guard panics. -/
theorem C97_counterexample : (after 0 panickingDrop).b.panics = true := by decide

/-- A reads; B reads while A reads, without asking; A releases first, then B: A ignores the release of B. -/
def lostRelease : List Op :=
  [.a (.request .read 1), .b .recv, .a .recv, .b (.request .read 2), .a (.release .read), .b .recv, .b .recv, .b .recv,
   .a .recv, .b (.release .read), .a .recv]

/-- **C98 is false.** After `lostRelease` no guard is held and no packet is on the way, but nobody at either endpoint ever
gets a guard again, for reading or writing, whatever happens later. The endpoints never waited at the same time. -/
theorem C98_counterexample_stuck_forever :
    Quiescent (after 0 lostRelease) ∧
    ∀ ops, ¬ (after 0 (lostRelease ++ ops)).a.holds ∧ ¬ (after 0 (lostRelease ++ ops)).b.holds := by
  have e0 : after 0 lostRelease = ⟨⟨.idle, 0, false⟩, ⟨.dropping .read false none, 0, false⟩, [], []⟩ := by decide
  refine ⟨?_, fun ops => ?_⟩
  · rw [e0]; simp [Quiescent, Node.holds, Node.writer, Node.readers]
  · obtain ⟨C, h0, hC⟩ := explore_sound encShape decShape (shapeSteps fun _ => true) Shape.unheld 10000 stuckShape
      shapes_stuck (by decide +kernel)
    have hr0 : Rel (after 0 lostRelease) 0 0 0 stuckShape := by
      rw [e0]
      exact ⟨⟨rfl, fun t e => (by cases e), fun _ => rfl, fun _ => rfl, rfl, trivial, trivial⟩,
        ⟨rfl, fun t e => (by cases e), fun _ => rfl, fun _ => rfl, rfl, trivial, trivial⟩⟩
    obtain ⟨ta, tb, z, hr, hz⟩ := sim_run (P := fun _ => True) (fun _ _ _ _ _ _ _ => rfl) (fun z hz => (hC z hz).2) ops
      hr0 h0 (fun _ _ _ => trivial)
    have hg := (hC z hz).1
    simp only [Shape.unheld, Bool.and_eq_true, Bool.not_eq_true'] at hg
    rw [stA hr, stB hr] at hg
    rw [show after 0 (lostRelease ++ ops) = ops.foldl step (after 0 lostRelease) by simp [after]]
    exact ⟨fun h => by rw [(holds_abs _).2 h] at hg; simp at hg, fun h => by rw [(holds_abs _).2 h] at hg; simp at hg⟩

/-- Both endpoints want to write; A wins and releases. -/
def forgottenWaiter : List Op :=
  [.a (.request .write 1), .b (.request .write 2), .a .recv, .a (.release .write), .b .recv, .b .recv, .b .recv, .a .recv,
   .a .recv]

/-- **C98 is false** also without readers: after `forgottenWaiter` no guard is held, no packet is on the way, A is idle, and
B waits for the write lock. -/
theorem C98_counterexample_waiter :
    Quiescent (after 0 forgottenWaiter) ∧ (after 0 forgottenWaiter).a.st = .idle ∧
    (after 0 forgottenWaiter).b.wants = some .write := by
  simp only [Quiescent, Node.holds]; decide

/-! ### The hypotheses are met -/

theorem always_of_take {P : Sys → Prop} {v : Nat} {ops : List Op}
    (h : ∀ n, n < ops.length + 1 → P (after v (ops.take n))) : Always P v ops := fun pre post e => by
  have := h pre.length (by rw [e, List.length_append]; omega)
  rwa [e, List.take_left] at this

instance (s : Sys) : Decidable (SameKind s) :=
  decidable_of_iff ((match s.a.wants, s.b.wants with | some k, some k' => decide (k = k') | _, _ => true) = true) (by
    unfold SameKind
    cases s.a.wants <;> cases s.b.wants <;> simp)

instance (s : Sys) : Decidable (OnlyReads s) :=
  decidable_of_iff ((match s.a.wants, s.b.wants with
      | some k, some k' => decide (k = .read) && decide (k' = .read) | _, _ => true) = true) (by
    unfold OnlyReads
    cases s.a.wants <;> cases s.b.wants <;> simp)

instance (s : Sys) : Decidable (NoShared s) :=
  have one (x : Node) : Decidable (∀ k n, x.st = .lent k n → n = 0) :=
    decidable_of_iff ((match x.st with | .lent _ n => decide (n = 0) | _ => true) = true) (by cases x.st <;> simp)
  have := one s.a
  have := one s.b
  inferInstanceAs (Decidable (_ ∧ _))

/-- Both endpoints want to write at the same time, A wins and writes 5. When A asks again, B, which is still waiting, gets
the lock first and writes 6; A has the lock next. -/
def contendedWrites : List Op :=
  [.a (.request .write 1), .b (.request .write 2), .a .recv, .a (.write 5), .b .recv, .b .recv, .a (.release .write),
   .b .recv, .a .recv, .a .recv, .a (.request .write 3), .b .recv, .b (.write 6), .b (.release .write), .a .recv, .a .recv]

example : Always SameKind 0 contendedWrites :=
  always_of_take (by decide +kernel)

example : (after 0 contendedWrites).a.writer = true ∧ (after 0 contendedWrites).a.val = 6 := by decide

/-- Both endpoints read, having asked at the same time, and release; then A writes. -/
def crossedReads : List Op :=
  [.a (.request .read 1), .b (.request .read 2), .a .recv, .b .recv, .a (.release .read), .b (.release .read), .a .recv,
   .a .recv, .b .recv, .b .recv, .b .recv, .b .recv, .a .recv, .a .recv, .a .recv, .b .recv, .b .recv,
   .a (.request .write 3), .b .recv, .a .recv, .a (.write 9), .a (.release .write), .b .recv, .b .recv, .b .recv, .a .recv]

example : Always (fun s => OnlyReads s ∧ NoShared s) 0 crossedReads := always_of_take (by decide +kernel)

example : Quiescent (after 0 crossedReads) ∧ (after 0 crossedReads).b.val = 9 := by
  simp only [Quiescent, Node.holds]; decide

end Verif.NetRwLock

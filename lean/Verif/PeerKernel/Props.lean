import Verif.PeerKernel.Lemmas
/-
C149: every peer of the list is tried, and its result reaches the user once.
C150: a file handle reaches the receiver of the peer that offers the file.
-/
namespace Verif.PeerKernel

/-! ### C149 -/

/-- The tasks start exactly if every search in the backend works and the list is not empty. -/
theorem C149_start (hash : List Char → Nat) (sid : Nat) (peers : List (UserId × Option (Option Nat))) :
    (∃ s, start hash sid peers = .running s) ↔ peers ≠ [] ∧ ∀ p ∈ peers, p.2 ≠ none := by
  unfold start
  by_cases h : (peers.any fun p => p.2.isNone) = true
  · rw [if_pos h]
    obtain ⟨p, hp, hn⟩ := List.any_eq_true.mp h
    refine ⟨(fun ⟨_, hs⟩ => by cases hs), (fun hs => absurd (Option.isNone_iff_eq_none.mp hn) (hs.2 p hp))⟩
  · rw [if_neg h]
    have hall : ∀ p ∈ peers, p.2 ≠ none := fun p hp hn => h (List.any_eq_true.mpr ⟨p, hp, by simp [hn]⟩)
    by_cases h0 : peers.length = 0
    · rw [if_pos h0]
      refine ⟨(fun ⟨_, hs⟩ => by cases hs), (fun hs => absurd (List.length_eq_zero_iff.mp h0) hs.1)⟩
    · rw [if_neg h0]
      exact ⟨fun _ => ⟨fun e => h0 (by rw [e]; rfl), hall⟩, fun _ => ⟨_, rfl⟩⟩

/-- The tasks that start are one for each peer of the list, and each knows its peer: as the backend has it, or else as it was named. -/
theorem C149_started (hash : List Char → Nat) (sid : Nat) (peers : List (UserId × Option (Option Nat))) {s : St}
    (h : start hash sid peers = .running s) :
    s.n = peers.length ∧ (∀ i, s.ph i = .preparing) ∧ s.results = [] ∧
    (∀ i id c, peers[i]? = some (id, some (some c)) → s.key i = (sid, c)) ∧
    (∀ i c, peers[i]? = some (.cid c, some none) → s.key i = (sid, c)) ∧
    ∀ i u, peers[i]? = some (.name u, some none) → s.key i = (sid, hash u) := by
  unfold start at h
  split at h
  · cases h
  · split at h
    · cases h
    · cases h
      refine ⟨rfl, fun _ => rfl, rfl, ?_, ?_, ?_⟩
      · intro i id c hp
        simp only [init, hp, earlyKey]
      · intro i c hp
        simp only [init, hp, earlyKey, UserId.getCid]
      · intro i u hp
        simp only [init, hp, earlyKey, UserId.getCid]

theorem step_user {s : St} {a : Act} (h : ∀ ok, a ≠ .finish ok) : (step s a).user = s.user := by
  cases a with
  | finish ok => exact absurd rfl (h ok)
  | _ => simp only [step, cancelAll] <;> (repeat' split) <;> rfl

/-- What the function of the user returned first counts. -/
theorem C149_user (n : Nat) (key : Nat → Key) (as : List Act) :
    (run (init n key) as).user = as.findSome? fun a => match a with | .finish ok => some ok | _ => none := by
  suffices H : ∀ (as : List Act) (s : St), (run s as).user =
      s.user.or (as.findSome? fun a => match a with | .finish ok => some ok | _ => none) from by
    rw [H]; rfl
  intro as
  induction as with
  | nil => intro s; cases h : s.user <;> simp [run, h]
  | cons a as ih =>
    intro s
    have hr : run s (a :: as) = run (step s a) as := rfl
    rw [hr, ih, List.findSome?_cons]
    cases a with
    | finish ok =>
      simp only [step]
      cases hu : s.user with
      | none => simp
      | some u => simp [hu]
    | _ => rw [step_user (by intro ok h; cases h)]

/-- An empty list of peers is a panic. -/
theorem C149_counterexample_empty (hash : List Char → Nat) (sid : Nat) : start hash sid [] = .panicked := rfl

/-- No peer has two results, a result is what happened to its task, and there is always room for it in the channel. -/
theorem C149_once (n : Nat) (key : Nat → Key) (as : List Act) :
    ((run (init n key) as).results.map Prod.fst).Nodup ∧ (run (init n key) as).results.length ≤ n ∧
    (∀ i c, (i, Outcome.ok c) ∈ (run (init n key) as).results → i < n ∧ Act.connectOk i c ∈ as) ∧
    (∀ i, (i, Outcome.err) ∈ (run (init n key) as).results →
      i < n ∧ (Act.prepareFail i ∈ as ∨ Act.connectFail i ∈ as)) := by
  have h := Inv.reach n key as
  have hlt : ∀ i o, (i, o) ∈ (run (init n key) as).results → i < n := by
    intro i o hm
    have := h.lt (i := i) (by rw [(h.mem i o).mp hm]; simp)
    simpa [init] using this
  refine ⟨h.nodup, ?_, ?_, ?_⟩
  · have := h.nodup.length_le_of_subset (l₂ := List.range n) (by
      intro i hi
      obtain ⟨⟨j, o⟩, hm, rfl⟩ := List.mem_map.mp hi
      exact List.mem_range.mpr (hlt _ _ hm))
    simpa using this
  · exact fun i c hm => ⟨hlt _ _ hm, h.good i c (.inr ((h.mem _ _).mp hm))⟩
  · exact fun i hm => ⟨hlt _ _ hm, h.bad i (.inr ((h.mem _ _).mp hm))⟩

/-- A user who reads the results to the end has one for every peer. -/
theorem C149_all (n : Nat) (key : Nat → Key) (as : List Act) (hr : (run (init n key) as).rx = true)
    (he : recv (run (init n key) as) = .ended) :
    (run (init n key) as).taken = n ∧ ∀ i, i < n → ∃ o, (i, o) ∈ (run (init n key) as).results := by
  have h := Inv.reach n key as
  have hlen := (C149_once n key as).2.1
  have hn : (run (init n key) as).n = n := by simp [init]
  generalize run (init n key) as = s at *
  unfold recv at he
  split at he
  · cases he
  · rename_i hg
    split at he
    · rename_i hall
      rw [List.all_eq_true] at hall
      have hdone : ∀ i, i < n → ∃ o, (i, o) ∈ s.results := by
        intro i hi
        have hgi := hall i (List.mem_range.mpr (by omega))
        have hc := h.fine (h.rx hr) i
        cases hp : s.ph i with
        | done o => exact ⟨o, (h.mem i o).mpr hp⟩
        | cancelled => exact absurd hp hc
        | preparing => rw [hp] at hgi; cases hgi
        | connecting => rw [hp] at hgi; cases hgi
        | sending o => rw [hp] at hgi; cases hgi
      refine ⟨?_, hdone⟩
      have h1 : n ≤ (s.results.map Prod.fst).length := by
        have := (List.nodup_range (n := n)).length_le_of_subset (l₂ := s.results.map Prod.fst) (by
          intro i hi
          obtain ⟨o, ho⟩ := hdone i (List.mem_range.mp hi)
          exact List.mem_map.mpr ⟨_, ho, rfl⟩)
        simpa using this
      have h2 := List.getElem?_eq_none_iff.mp hg
      have h3 := h.taken
      rw [List.length_map] at h1
      omega
    · cases he

/-- While the user holds the receiver of the results, no task waits for another one: its own steps are enough for its
result to be sent. -/
theorem C149_independent (n : Nat) (key : Nat → Key) (as : List Act) (hr : (run (init n key) as).rx = true) (i : Nat)
    (hi : i < n) :
    ∃ o, (i, o) ∈ (run (init n key) (as ++ [.prepareFail i, .connectFail i, .send i])).results := by
  have h := Inv.reach n key as
  have hn : (run (init n key) as).n = n := by simp [init]
  rw [run_append]
  generalize run (init n key) as = s at *
  have hc := h.fine (h.rx hr) i
  have hi' : i < s.n := by omega
  cases hp : s.ph i with
  | done o =>
    refine ⟨o, ?_⟩
    simp [run, step, hp, (h.mem i o).mpr hp]
  | cancelled => exact absurd hp hc
  | preparing => exact ⟨.err, by simp [run, step, hp, hi', upd, hr]⟩
  | connecting => exact ⟨.err, by simp [run, step, hp, hi', upd, hr]⟩
  | sending o => exact ⟨o, by simp [run, step, hp, hi', hr]⟩

/-- The kernel returns success exactly if the function of the user did and the result of every peer was sent. -/
theorem C149_success (n : Nat) (key : Nat → Key) (as : List Act) :
    returned (run (init n key) as) = some true ↔
      (run (init n key) as).user = some true ∧ ∀ i, i < n → ∃ o, (i, o) ∈ (run (init n key) as).results := by
  have h := Inv.reach n key as
  have hn : (run (init n key) as).n = n := by simp [init]
  generalize run (init n key) as = s at *
  have hfin : (∀ i, i < n → ∃ o, (i, o) ∈ s.results) ↔ ∀ i, i < n → (s.ph i).finished = true := by
    refine ⟨fun hx i hi => ?_, fun hx i hi => ?_⟩
    · obtain ⟨o, ho⟩ := hx i hi
      rw [(h.mem i o).mp ho]; rfl
    · have := hx i hi
      cases hp : s.ph i with
      | done o => exact ⟨o, (h.mem i o).mpr hp⟩
      | _ => rw [hp] at this; cases this
  rw [hfin]
  unfold returned
  cases hu : s.user with
  | none => simp
  | some u =>
    by_cases hf : s.failed = true
    · rw [hf]
      obtain ⟨i, hi, hp⟩ := h.lost hf
      constructor
      · intro hx; simp at hx
      · intro ⟨_, hx⟩
        have := hx i (by omega)
        rw [hp] at this; cases this
    · have hf' : s.failed = false := by simpa using hf
      have hall : ((List.range s.n).all fun i => (s.ph i).finished) = true ↔ ∀ i, i < n → (s.ph i).finished = true := by
        rw [List.all_eq_true]
        exact ⟨fun hx i hi => hx i (List.mem_range.mpr (by omega)), fun hx i hi => hx i (by
          have := List.mem_range.mp hi; omega)⟩
      simp only [hf', Bool.false_eq_true, if_false]
      by_cases hx : ((List.range s.n).all fun i => (s.ph i).finished) = true
      · rw [if_pos hx]
        exact ⟨fun e => ⟨e, hall.mp hx⟩, fun e => e.1⟩
      · rw [if_neg hx]
        constructor
        · intro hy; cases hy
        · intro hy; exact absurd (hall.mpr hy.2) hx

theorem rx_false {s : St} (h : s.rx = false) (as : List Act) : (run s as).rx = false := by
  induction as generalizing s with
  | nil => exact h
  | cons a as ih =>
    apply ih
    cases a <;> simp only [step] <;> (repeat' split) <;> first | exact h | rfl

theorem results_fixed {s : St} (h : s.rx = false) (as : List Act) : (run s as).results = s.results := by
  induction as generalizing s with
  | nil => rfl
  | cons a as ih =>
    have hr : (step s a).rx = false := rx_false h [a]
    rw [run_cons, ih hr]
    cases a <;> simp only [step] <;> (repeat' split) <;> first | rfl | (exfalso; simp_all)

/-- A user who drops the receiver of the results before all of them were sent never gets a success, whatever its
function returns. -/
theorem C149_counterexample_dropped (n : Nat) (key : Nat → Key) (as bs : List Act) (i : Nat) (hi : i < n)
    (hr : (run (init n key) as).rx = false) (hu : ∀ o, (i, o) ∉ (run (init n key) as).results) :
    returned (run (init n key) (as ++ bs)) ≠ some true := by
  rw [ne_eq, C149_success]
  intro ⟨_, h⟩
  obtain ⟨o, ho⟩ := h i hi
  rw [run_append, results_fixed hr] at ho
  exact hu o ho

/-- The first task that ends after that stops all the others. -/
theorem C149_counterexample_cancelled (n : Nat) (key : Nat → Key) (as : List Act) (i j : Nat) (o : Outcome) (hi : i < n)
    (hj : j < n) (hr : (run (init n key) as).rx = false) (hs : (run (init n key) as).ph i = .sending o)
    (hu : ∀ o, (j, o) ∉ (run (init n key) as).results) :
    (run (init n key) (as ++ [.send i])).ph j = .cancelled := by
  have h := Inv.reach n key as
  have hn : (run (init n key) as).n = n := by simp [init]
  rw [run_append]
  generalize run (init n key) as = s at *
  have hf : (s.ph j).finished = false := by
    cases hp : s.ph j with
    | done o => exact absurd ((h.mem j o).mpr hp) (hu o)
    | _ => rfl
  have hi' : i < s.n := by omega
  have hj' : j < s.n := by omega
  simp [run, step, hi', hs, hr, cancelAll, hj', hf]

/-- Three peers; the user takes the result of the first one and drops the receiver. -/
def early : List Act := [.prepared 0, .prepared 1, .prepared 2, .connectOk 0 (5, 6), .send 0, .take, .dropRx, .finish true]
example : (run (init 3 fun i => (5, 6 + i)) early).results = [(0, .ok (5, 6))] := by decide
example : returned (run (init 3 fun i => (5, 6 + i)) (early ++ [.connectOk 1 (5, 7), .send 1])) = some false := by decide
example : (run (init 3 fun i => (5, 6 + i)) (early ++ [.connectOk 1 (5, 7), .send 1])).ph 2 = .cancelled := by decide

/-- Two peers, both results are read. -/
def both : List Act := [.prepared 0, .prepared 1, .connectFail 1, .send 1, .take, .connectOk 0 (5, 6), .send 0, .take]
example : recv (run (init 2 fun i => (5, 6 + i)) both) = .ended ∧ (run (init 2 fun i => (5, 6 + i)) both).rx = true ∧
    returned (run (init 2 fun i => (5, 6 + i)) (both ++ [.finish true])) = some true := by decide

/-! ### C150 -/

/-- A connection of the session `me` to another client. -/
def ToPeer (me : Nat) (k : Key) : Prop := k.1 = me ∧ k.2 ≠ 0 ∧ k.2 ≠ me

theorem inbox_step {s : St} {a : Act} {i : Nat} {h : Handle} (hm : h ∈ (step s a).inbox i) :
    h ∈ s.inbox i ∨ ∃ sid, a = .file sid h ∧ s.act (connOf sid h) = some i := by
  cases a with
  | file sid x =>
    simp only [step] at hm
    split at hm
    · rename_i j hj
      split at hm
      · simp only [upd] at hm
        split at hm
        · rename_i e
          subst e
          rcases List.mem_append.mp hm with hm | hm
          · exact .inl hm
          · rw [List.mem_singleton] at hm
            subst hm
            exact .inr ⟨sid, rfl, hj⟩
        · exact .inl hm
      · exact .inl hm
    · exact .inl hm
  | _ =>
    left
    simp only [step] at hm
    (repeat' split at hm) <;> exact hm

/-- Every handle a receiver gets is of the peer of its task. -/
theorem C150_right_peer (me n : Nat) (key peer : Nat → Key) (as : List Act) (hd : Distinct n key peer)
    (hc : Connects peer as) (hh : AllHonest me as) (hm : me ≠ 0)
    (hk : ∀ i, i < n → ToPeer me (key i) ∧ ToPeer me (peer i)) (i : Nat) (h : Handle)
    (hi : h ∈ (run (init n key) as).inbox i) : (me, h.by_) = key i ∨ (me, h.by_) = peer i := by
  suffices H : ∀ (as : List Act) (s : St), Sent peer s → s.n = n → s.key = key → Connects peer as → AllHonest me as →
      (∀ i h, h ∈ s.inbox i → (me, h.by_) = key i ∨ (me, h.by_) = peer i) →
      ∀ i h, h ∈ (run s as).inbox i → (me, h.by_) = key i ∨ (me, h.by_) = peer i from
    H as (init n key) (Sent.init peer n key) rfl rfl hc hh (by simp [init]) i h hi
  intro as
  induction as with
  | nil => intro s _ _ _ _ _ hx i h hi; exact hx i h hi
  | cons a as ih =>
    intro s hs hn hke hc hh hx
    have ha : ∀ i c, a = .connectOk i c → c = peer i := fun i c e => hc i c (by rw [e]; exact List.mem_cons_self)
    refine ih (step s a) (hs.step (by rw [hn, hke]; exact hd) a ha) (by rw [step_n, hn]) (by rw [step_key, hke])
      (fun i c e => hc i c (List.mem_cons_of_mem _ e)) (fun sid h e => hh sid h (List.mem_cons_of_mem _ e)) ?_
    intro i h hi
    rcases inbox_step hi with hi | ⟨sid, rfl, hact⟩
    · exact hx i h hi
    · obtain ⟨hin, hkey⟩ := hs.own _ _ hact
      have hho := honest_conn hm (hh sid h List.mem_cons_self)
      rw [hn] at hin
      rw [hke] at hkey
      have hto : ToPeer me (connOf sid h) := by
        rcases hkey with e | e <;> rw [e]
        · exact (hk i hin).1
        · exact (hk i hin).2
      by_cases h0 : h.by_ = 0
      · rcases hho.2.1 h0 with e | e <;> rw [e] at hto
        · exact absurd rfl hto.2.1
        · exact absurd rfl hto.2.2
      · by_cases h1 : h.by_ = me
        · rw [hho.2.2 h1] at hto
          exact absurd rfl hto.2.2
        · rw [hho.1 ⟨h0, h1⟩] at hkey
          exact hkey

/-- While a task connects to the peer it registered early, and ever after it is connected, the file handles of its peer
reach its receiver, if it was not dropped, and nothing else changes. -/
theorem C150_delivered (me n : Nat) (key peer : Nat → Key) (as : List Act) (hd : Distinct n key peer)
    (hc : Connects peer as) (hm : me ≠ 0) (i sid : Nat) (h : Handle) (hi : i < n) (hh : Honest me sid h)
    (hp : (me, h.by_) = peer i) (hto : ToPeer me (peer i))
    (hst : (run (init n key) as).ph i = .connecting ∧ key i = peer i ∨
      ∃ c, (run (init n key) as).ph i = .sending (.ok c) ∨ (run (init n key) as).ph i = .done (.ok c))
    (hal : (run (init n key) as).alive i = true) :
    run (init n key) (as ++ [.file sid h]) =
      { run (init n key) as with
        inbox := fun j => if j = i then (run (init n key) as).inbox i ++ [h] else (run (init n key) as).inbox j } := by
  have hs := (Sent.init peer n key).run hd as hc
  have hn : (run (init n key) as).n = n := by simp [init]
  have hke : (run (init n key) as).key = key := by simp [init]
  rw [run_append]
  generalize run (init n key) as = s at *
  rw [← hp] at hto
  have hconn := (honest_conn hm hh).1 ⟨hto.2.1, hto.2.2⟩
  have hact : s.act (peer i) = some i := by
    rcases hst with ⟨h1, h2⟩ | ⟨c, h1⟩
    · have := hs.conn i (by omega) h1
      rwa [hke, h2] at this
    · exact (hs.made i c (by omega) h1).2
  simp only [run, List.foldl, step, hconn, hp, hact, hal, if_true]
  rfl

/-- A file offered by the server is never shown to the user. -/
theorem C150_counterexample_server (me n : Nat) (key peer : Nat → Key) (as : List Act) (hd : Distinct n key peer)
    (hc : Connects peer as) (hm : me ≠ 0) (hk : ∀ i, i < n → ToPeer me (key i) ∧ ToPeer me (peer i)) (sid : Nat)
    (h : Handle) (hh : Honest me sid h) (h0 : h.by_ = 0) :
    run (init n key) (as ++ [.file sid h]) = run (init n key) as := by
  have hs := (Sent.init peer n key).run hd as hc
  have hn : (run (init n key) as).n = n := by simp [init]
  have hke : (run (init n key) as).key = key := by simp [init]
  rw [run_append]
  generalize run (init n key) as = s at *
  have hno : s.act (connOf sid h) = none := by
    cases hx : s.act (connOf sid h) with
    | none => rfl
    | some j =>
      obtain ⟨hj, hkey⟩ := hs.own _ _ hx
      rw [hn] at hj
      rw [hke] at hkey
      have hto : ToPeer me (connOf sid h) := by
        rcases hkey with e | e <;> rw [e]
        · exact (hk j hj).1
        · exact (hk j hj).2
      rcases (honest_conn hm hh).2.1 h0 with e | e <;> rw [e] at hto
      · exact absurd rfl hto.2.1
      · exact absurd rfl hto.2.2
  simp only [run, List.foldl, step, hno]

/-- The stream of file handles of a connected peer never ends, not even when the connection does. -/
theorem C150_counterexample_never_ends (n : Nat) (key peer : Nat → Key) (as bs : List Act) (hd : Distinct n key peer)
    (hc : Connects peer (as ++ bs)) (i : Nat) (c : Key) (h : (i, Outcome.ok c) ∈ (run (init n key) as).results) :
    ¬ ended (run (init n key) (as ++ bs)) i := by
  have hin := ((C149_once n key as).2.2.1 i c h).1
  have h1 := Inv.reach n key as
  have h2 := Inv.reach n key (as ++ bs)
  have hs := (Sent.init peer n key).run hd (as ++ bs) hc
  have hn : (run (init n key) (as ++ bs)).n = n := by simp [init]
  have hp : (run (init n key) (as ++ bs)).ph i = .done (.ok c) := by
    have hm : ∀ (bs : List Act) (s : St), (i, Outcome.ok c) ∈ s.results → (i, Outcome.ok c) ∈ (run s bs).results := by
      intro bs
      induction bs with
      | nil => intro s h; exact h
      | cons b bs ih =>
        intro s h
        apply ih
        cases b <;> simp only [step] <;> (repeat' split) <;> first | exact h | exact List.mem_append_left _ h
    rw [run_append] at h2 ⊢
    exact (h2.mem i _).mp (hm bs _ h)
  intro he
  exact he.2 _ (hs.made i c (by omega) (.inr hp)).2

/-- A party can offer a file in the name of another one: client 9, or the server, writes client 8 into the header. -/
theorem C150_counterexample_forged (from_ id : Nat) :
    (run (init 2 fun i => (5, 8 + i))
      [.prepared 0, .connectOk 0 (5, 8), .send 0, .prepared 1, .connectOk 1 (5, 9), .send 1,
       .file (inbound from_ id (.peer 8 5) false).1 (inbound from_ id (.peer 8 5) false).2]).inbox 0 =
      [(inbound from_ id (.peer 8 5) false).2] := by
  simp [run, step, init, upd, settle, inbound, VTarget.flip, VTarget.sessionCid, VTarget.targetCid, connOf]

/-- A peer that is in the list twice: the failure of the second connection cuts the first one off from its files. -/
theorem C150_counterexample_twice (id : Nat) :
    let s := run (init 2 fun _ => (5, 8)) [.prepared 0, .prepared 1, .connectOk 0 (5, 8), .send 0, .connectFail 1, .send 1]
    s.results = [(0, .ok (5, 8)), (1, .err)] ∧ s.alive 0 = true ∧ ended s 0 ∧
    (step s (.file (inbound 8 id (.peer 8 5) false).1 (inbound 8 id (.peer 8 5) false).2)).inbox 0 = [] := by
  refine ⟨rfl, rfl, ⟨rfl, ?_⟩, rfl⟩
  intro k
  show upd (upd (upd (fun _ => none) (5, 8) (some 0)) (5, 8) (some 1)) (5, 8) none k ≠ some 0
  simp only [upd]
  split <;> simp

/-- Two different peers, both files arrive. -/
def files : List Act :=
  [.prepared 0, .prepared 1, .connectOk 1 (5, 9), .send 1, .take, .file (inbound 8 70 (target 5 8) false).1
    (inbound 8 70 (target 5 8) false).2, .file (inbound 9 71 (target 5 9) true).1 (inbound 9 71 (target 5 9) true).2]
example : ((run (init 2 fun i => (5, 8 + i)) files).inbox 0).map (·.id) = [70] ∧
    ((run (init 2 fun i => (5, 8 + i)) files).inbox 1).map (·.id) = [71] := by decide
example : Distinct 2 (fun i => (5, 8 + i)) (fun i => (5, 8 + i)) := by
  intro i j _ _ h; simp; omega
example : Connects (fun i => (5, 8 + i)) files := by
  intro i c h; simp [files] at h; simp [h]
example : AllHonest 5 files := by
  intro sid h hm
  simp only [files, List.mem_cons, Act.file.injEq, reduceCtorEq, false_or, List.not_mem_nil, or_false] at hm
  rcases hm with ⟨rfl, rfl⟩ | ⟨rfl, rfl⟩
  · exact .offer 8 70 false
  · exact .offer 9 71 true

end Verif.PeerKernel

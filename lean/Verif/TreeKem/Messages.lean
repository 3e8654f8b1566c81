import Verif.TreeKem.Props
/-
C27: the key/nonce derivations of application messages.
-/
namespace Verif.TreeKem

open Verif.TreeMath

variable {M : Type} (P : Prims M)

def Sent.apps : Sent M → List (AppMsg M)
  | .app a => [a]
  | _ => []

/-- Executions together with all application messages sent so far, oldest first. -/
inductive Trace : World M → List (AppMsg M) → Prop
  | create (founder : LeafNode M) (s : M) : founder.pk = P.pub s → Trace (founding P founder s) []
  | step {w : World M} {log : List (AppMsg M)} (op : Op M) : Trace w log → Valid P w op →
      Trace (step P w op).1 (log ++ (step P w op).2.apps)

theorem Trace.reach {w : World M} {log : List (AppMsg M)} (h : Trace P w log) : Reach P w := by
  induction h with
  | create f s hf => exact .create f s hf
  | step op _ hv ih => exact .step op ih hv

/-- The messages of `i` in epoch `e`. -/
def of (log : List (AppMsg M)) (e i : Nat) : List (AppMsg M) := log.filter fun a => a.epoch == e && a.sender == i

structure Counted (w : World M) (log : List (AppMsg M)) : Prop where
  gens : ∀ e i, (of log e i).map (·.gen) = (List.range (of log e i).length).map (· % 2 ^ 32)
  now : ∀ j g, w j = some g → g.gen = (of log g.epoch j).length % 2 ^ 32
  future : ∀ j g, w j = some g → ∀ a ∈ log, a.epoch ≤ g.epoch

theorem process_gen {g : GroupState M} {c : Commit M} (h : (processCommit P g c).2 = .ok ()) : (processCommit P g c).1.gen = 0 := by
  unfold processCommit at h ⊢
  split at h
  · cases h
  · split at h
    · cases h
    · cases h
    · rfl

theorem join_gen {w : Welcome M} {s : M} {h : GroupState M} (hj : joinFromWelcome P w s = .ok h) : h.gen = 0 := by
  unfold joinFromWelcome at hj
  split at hj
  · cases hj
  · split at hj
    · cases hj
    · split at hj
      · cases hj
      · split at hj
        · cases hj; rfl
        · cases hj

/-- After a commit every member starts at generation 0. -/
theorem gen_zero (hP : Lawful P) {w : World M} (hw : Reach P w) {op : Op M} (hop : Valid P w op)
    (hne : ∀ i m, op ≠ .send i m) {j : Nat} {h : GroupState M} (hj : (step P w op).1 j = some h) :
    h.gen = 0 ∧ (step P w op).2.apps = [] := by
  obtain ⟨v, hv⟩ := inv_reach P hP hw
  cases op with
  | update k s rnd =>
    obtain ⟨g, hg⟩ := Option.isSome_iff_exists.1 hop
    obtain ⟨l, us, -, -, h3, h4, -⟩ := update_ok P hP hv hg s rnd
    unfold step at hj ⊢
    dsimp only at hj ⊢
    rw [hg] at hj ⊢
    dsimp only at hj ⊢
    rw [h3] at hj ⊢
    refine ⟨?_, rfl⟩
    dsimp only [deliver] at hj
    split at hj
    · cases hj; rfl
    · rename_i hjk
      obtain ⟨h0, hw, rfl⟩ := Option.map_eq_some_iff.1 hj
      exact process_gen P (h4 j h0 hjk hw).ok
  | add k leaf js s rnd rw =>
    obtain ⟨hpk, g, hg, hcap⟩ := hop
    rw [(hv.member k g hg).tree, hv.shape.toSize.leaves] at hcap
    obtain ⟨q, n, t0, l, us, lca, σ, hj', -, -, -, h1, -, -, -, -, -, -, -, h2, h3, -, h4, -⟩ :=
      add_ok P hP hv hg hcap hpk s rnd rw
    unfold step at hj ⊢
    dsimp only at hj ⊢
    rw [hg] at hj ⊢
    dsimp only at hj ⊢
    rw [h2] at hj ⊢
    dsimp only at hj ⊢
    rw [h4] at hj
    refine ⟨?_, rfl⟩
    split at hj
    · cases hj; exact join_gen P h4
    · dsimp only [deliver] at hj
      split at hj
      · cases hj; rfl
      · rename_i hjk
        obtain ⟨h0, hw, rfl⟩ := Option.map_eq_some_iff.1 hj
        exact process_gen P (h3 j h0 hjk hw).ok
  | remove k k' s rnd =>
    obtain ⟨h1, h2, h3⟩ := hop
    obtain ⟨g, hg⟩ := Option.isSome_iff_exists.1 h1
    obtain ⟨t0, l, us, -, -, -, -, h4, h5, -⟩ := remove_ok P hP hv hg h2 h3 s rnd
    unfold step at hj ⊢
    dsimp only at hj ⊢
    rw [hg] at hj ⊢
    dsimp only at hj ⊢
    rw [h4] at hj ⊢
    refine ⟨?_, rfl⟩
    dsimp only at hj
    split at hj
    · cases hj
    · rename_i hjk'
      dsimp only [deliver] at hj
      split at hj
      · cases hj; rfl
      · rename_i hjk
        obtain ⟨h0, hw, rfl⟩ := Option.map_eq_some_iff.1 hj
        exact process_gen P (h5 j h0 hjk hjk' hw).ok
  | send i m => exact absurd rfl (hne i m)

theorem exists_member {w : World M} {op : Op M} (hop : Valid P w op) : ∃ i g, w i = some g := by
  cases op with
  | update i s rnd => obtain ⟨g, hg⟩ := Option.isSome_iff_exists.1 hop; exact ⟨i, g, hg⟩
  | add i leaf js s rnd rw => obtain ⟨_, g, hg, _⟩ := hop; exact ⟨i, g, hg⟩
  | remove i j s rnd => obtain ⟨g, hg⟩ := Option.isSome_iff_exists.1 hop.1; exact ⟨i, g, hg⟩
  | send i m => obtain ⟨g, hg⟩ := Option.isSome_iff_exists.1 hop; exact ⟨i, g, hg⟩

theorem of_append (log log' : List (AppMsg M)) (e i : Nat) : of (log ++ log') e i = of log e i ++ of log' e i :=
  List.filter_append ..

theorem of_none {log : List (AppMsg M)} {e i : Nat} (h : ∀ a ∈ log, a.epoch < e) : of log e i = [] := by
  unfold of
  rw [List.filter_eq_nil_iff]
  intro a ha
  have := h a ha
  simp only [Bool.and_eq_true, beq_iff_eq, not_and]
  intro e1; omega

theorem counted (hP : Lawful P) {w : World M} {log : List (AppMsg M)} (h : Trace P w log) : Counted w log := by
  induction h with
  | create f s hf =>
    refine ⟨fun e i => rfl, fun j g hj => ?_, fun _ _ _ a ha => by simp at ha⟩
    unfold founding at hj
    split at hj
    · cases hj; rfl
    · cases hj
  | @step w log op ht hv ih =>
    have hr := ht.reach
    obtain ⟨i, g, hi⟩ := exists_member P hv
    by_cases hs : ∃ i m, op = .send i m
    · obtain ⟨i, m, rfl⟩ := hs
      obtain ⟨g, hi⟩ := Option.isSome_iff_exists.1 hv
      have hg := C24_agreement P hP hr hi hi
      have hgi : g.ownLeaf = i := hg.2.2.2.2.1
      have hst : step P w (.send i m) = (fun j => if j = i then some (encryptMessage P g m).1 else w j,
          .app (encryptMessage P g m).2) := by
        unfold step; dsimp only; rw [hi]
      rw [hst]
      have hof : ∀ e k, of [(encryptMessage P g m).2] e k =
          if e = g.epoch ∧ k = i then [(encryptMessage P g m).2] else [] := by
        intro e k
        unfold of
        rw [List.filter_cons, List.filter_nil]
        unfold encryptMessage
        dsimp only
        rw [hgi]
        by_cases h1 : g.epoch = e
        · by_cases h2 : i = k
          · rw [if_pos (by simp [h1, h2]), if_pos ⟨h1.symm, h2.symm⟩]
          · rw [if_neg (by simp [h2]), if_neg (fun h => h2 h.2.symm)]
        · rw [if_neg (by simp [h1]), if_neg (fun h => h1 h.1.symm)]
      refine ⟨fun e k => ?_, fun j h hj => ?_, fun j h hj a ha => ?_⟩
      · rw [Sent.apps, of_append, hof]
        by_cases hc : e = g.epoch ∧ k = i
        · rw [if_pos hc, hc.1, hc.2, List.map_append, ih.gens, List.length_append, List.length_singleton, List.range_succ,
            List.map_append]
          congr 1
          simp only [List.map_cons, List.map_nil, List.cons.injEq, and_true]
          exact ih.now i g hi
        · rw [if_neg hc, List.append_nil, ih.gens]
      · rw [Sent.apps, of_append, hof]
        dsimp only at hj
        split at hj
        · rename_i e
          cases hj
          rw [if_pos ⟨rfl, e⟩, List.length_append, List.length_singleton, e]
          show (g.gen + 1) % 2 ^ 32 = ((of log g.epoch i).length + 1) % 2 ^ 32
          rw [ih.now i g hi, Nat.mod_add_mod]
        · rename_i e
          rw [if_neg (fun h => e h.2), List.append_nil, ih.now j h hj]
      · rw [Sent.apps] at ha
        have hep : h.epoch = g.epoch := by
          dsimp only at hj
          split at hj
          · cases hj; rfl
          · exact (C24_agreement P hP hr hj hi).2.1
        rcases List.mem_append.1 ha with ha | ha
        · rw [hep]; exact ih.future i g hi a ha
        · rw [List.mem_singleton.1 ha, hep]; exact le_rfl
    · have hne : ∀ i m, op ≠ .send i m := fun i m e => hs ⟨i, m, e⟩
      have happs : (step P w op).2.apps = [] := by
        have : ∃ j h, (step P w op).1 j = some h := by
          obtain ⟨v, hv'⟩ := inv_reach P hP hr
          cases op with
          | update k s rnd =>
            obtain ⟨g, c, h1, h2, -⟩ := C24_no_failure P hP hr hv
            refine ⟨k, (commitUpdate P g s rnd).1, ?_⟩
            unfold step; dsimp only; rw [h1]; dsimp only
            rcases hc : commitUpdate P g s rnd with ⟨g', r⟩
            rw [hc] at h2
            dsimp only at h2 ⊢
            subst h2
            simp [deliver]
          | add k leaf js s rnd rw =>
            obtain ⟨g, c, wel, h1, h2, -, h3, h4, h5⟩ := C24_no_failure P hP hr hv
            refine ⟨wel.joiner, h4, ?_⟩
            unfold step; dsimp only; rw [h1]; dsimp only
            rcases hc : addMember P g leaf s rnd rw with ⟨g', r⟩
            rw [hc] at h2
            dsimp only at h2 ⊢
            subst h2
            simp [h5]
          | remove k k' s rnd =>
            obtain ⟨g, c, h1, h2, -⟩ := C24_no_failure P hP hr hv
            refine ⟨k, (removeMember P g k' s rnd).1, ?_⟩
            unfold step; dsimp only; rw [h1]; dsimp only
            rcases hc : removeMember P g k' s rnd with ⟨g', r⟩
            rw [hc] at h2
            dsimp only at h2 ⊢
            subst h2
            simp [deliver, hv.2.2]
          | send i m => exact absurd rfl (hne i m)
        obtain ⟨j, h, hj⟩ := this
        exact (gen_zero P hP hr hv hne hj).2
      have hep : ∀ j h, (step P w op).1 j = some h → h.epoch = g.epoch + 1 := by
        intro j h hj
        have := C24_epoch P hP hr hv hi hj
        cases op with
        | send i m => exact absurd rfl (hne i m)
        | update _ _ _ => exact this
        | add _ _ _ _ _ _ => exact this
        | remove _ _ _ _ => exact this
      rw [happs, List.append_nil]
      refine ⟨ih.gens, fun j h hj => ?_, fun j h hj a ha => ?_⟩
      · rw [(gen_zero P hP hr hv hne hj).1, of_none]
        · rfl
        · intro a ha
          rw [hep j h hj]
          exact Nat.lt_succ_of_le (ih.future i g hi a ha)
      · rw [hep j h hj]
        exact (ih.future i g hi a ha).trans (Nat.le_succ _)

/-- C27, generations: in every execution the `k`-th message of a member in an epoch has generation `k` modulo 2^32. -/
theorem C27_generations (hP : Lawful P) {w : World M} {log : List (AppMsg M)} (h : Trace P w log) (e i k : Nat) {a : AppMsg M}
    (hk : (of log e i)[k]? = some a) : a.gen = k % 2 ^ 32 := by
  have h1 := congrArg (fun l => l[k]?) ((counted P hP h).gens e i)
  simp only [List.getElem?_map] at h1
  rw [hk, Option.map_some, List.getElem?_range (List.getElem?_eq_some_iff.1 hk).1, Option.map_some,
    Option.some.injEq] at h1
  exact h1

/-- C27, no reuse: two different messages never share epoch, sender and generation, as long as no member sends more than
2^32 messages in an epoch. Missing: the counter wraps after that, see `C27_counterexample`. -/
theorem C27_no_reuse_partial (hP : Lawful P) {w : World M} {log : List (AppMsg M)} (h : Trace P w log)
    (hfew : ∀ e i, (of log e i).length ≤ 2 ^ 32) :
    log.Pairwise fun a b => (a.epoch, a.sender, a.gen) ≠ (b.epoch, b.sender, b.gen) := by
  rw [List.pairwise_iff_getElem]
  intro x y hx hy hxy heq
  rw [Prod.mk.injEq, Prod.mk.injEq] at heq
  obtain ⟨h1, h2, h3⟩ := heq
  set e := log[y].epoch with he
  set i := log[y].sender with hi
  have hn : ((of log e i).map (·.gen)).Nodup := by
    rw [(counted P hP h).gens, List.nodup_map_iff_inj_on List.nodup_range]
    intro a ha b hb hab
    rw [List.mem_range] at ha hb
    have := hfew e i
    rw [Nat.mod_eq_of_lt (by omega), Nat.mod_eq_of_lt (by omega)] at hab
    exact hab
  have hp := List.pairwise_map.1 hn
  unfold of at hp
  rw [List.pairwise_filter, List.pairwise_iff_getElem] at hp
  exact hp x y hx hy hxy (by simp [h1, h2]) (by simp [he, hi]) h3

/-- C27, only in its epoch: a message opens at every member in its epoch and is rejected by members in any other. -/
theorem C27_epoch_bound (hP : Lawful P) {w : World M} (hw : Reach P w) {i j : Nat} {g h : GroupState M} (hi : w i = some g)
    (m : M) : (w j = some h → decryptMessage P h (encryptMessage P g m).2 = some m) ∧
      (h.epoch ≠ g.epoch → decryptMessage P h (encryptMessage P g m).2 = none) := by
  refine ⟨fun hj => (C24_agreement P hP hw hi hj).2.2.2.2.2 m, fun hne => ?_⟩
  unfold decryptMessage
  rw [if_neg]
  exact fun e => hne e.symm

/-- Sending `n` messages. -/
def sendAll (g : GroupState M) (m : Nat → M) : Nat → GroupState M
  | 0 => g
  | n + 1 => (encryptMessage P (sendAll g m n) (m n)).1

theorem sendAll_eq (g : GroupState M) (hg : g.gen = 0) (m : Nat → M) (n : Nat) :
    sendAll P g m n = { g with gen := n % 2 ^ 32 } := by
  induction n with
  | zero => rw [sendAll, Nat.zero_mod, ← hg]
  | succ n ih =>
    rw [sendAll, ih]
    unfold encryptMessage
    dsimp only
    rw [Nat.mod_add_mod]

/-- C27 is false of the code: for every group state at the start of an epoch, the first message and the one 2^32 messages later
are sealed under the same key and nonce. -/
theorem C27_counterexample (g : GroupState M) (hg : g.gen = 0) (m : Nat → M) (x : M) :
    let first := (encryptMessage P g (m 0)).2
    let later := (encryptMessage P (sendAll P g m (2 ^ 32)) x).2
    (first.epoch, first.sender, first.gen) = (later.epoch, later.sender, later.gen) ∧
      ∃ k, first.ct = P.aeadSeal k (m 0) ∧ later.ct = P.aeadSeal k x := by
  dsimp only
  rw [sendAll_eq P g hg, Nat.mod_self]
  refine ⟨?_, P.msgKey g.secrets.encryption g.ownLeaf 0, ?_, rfl⟩
  · unfold encryptMessage; dsimp only; rw [hg]
  · unfold encryptMessage; dsimp only; rw [hg]

end Verif.TreeKem

import Verif.PeerKernel.Spec
/-
What stays true while the tasks run.
-/
namespace Verif.PeerKernel

theorem upd_same {κ α : Type} [DecidableEq κ] (f : κ → α) (k : κ) (v : α) : upd f k v k = v := by simp [upd]
theorem upd_other {κ α : Type} [DecidableEq κ] (f : κ → α) {k x : κ} (v : α) (h : x ≠ k) : upd f k v x = f x := by
  simp [upd, h]

theorem run_append (s : St) (as bs : List Act) : run s (as ++ bs) = run (run s as) bs := by
  simp [run, List.foldl_append]

theorem run_cons (s : St) (a : Act) (as : List Act) : run s (a :: as) = run (step s a) as := rfl

@[simp] theorem step_n (s : St) (a : Act) : (step s a).n = s.n := by
  cases a <;> simp only [step] <;> (repeat' split) <;> rfl
@[simp] theorem step_key (s : St) (a : Act) : (step s a).key = s.key := by
  cases a <;> simp only [step] <;> (repeat' split) <;> rfl
@[simp] theorem run_n (s : St) (as : List Act) : (run s as).n = s.n := by
  induction as generalizing s with
  | nil => rfl
  | cons a as ih => rw [run_cons, ih, step_n]
@[simp] theorem run_key (s : St) (as : List Act) : (run s as).key = s.key := by
  induction as generalizing s with
  | nil => rfl
  | cons a as ih => rw [run_cons, ih, step_key]

theorem Phase.gone_of_finished {p : Phase} (h : p.finished = true) : p.gone = true := by
  cases p <;> first | rfl | cases h

/-- The results and the phases. `as` are the actions so far. -/
structure Inv (s : St) (as : List Act) : Prop where
  nodup : (s.results.map Prod.fst).Nodup
  mem : ∀ i o, (i, o) ∈ s.results ↔ s.ph i = .done o
  low : ∀ i, s.n ≤ i → s.ph i = .preparing
  rx : s.rx = true → s.failed = false
  fine : s.failed = false → ∀ i, s.ph i ≠ .cancelled
  gone : s.failed = true → ∀ i, i < s.n → (s.ph i).gone = true
  lost : s.failed = true → ∃ i, i < s.n ∧ s.ph i = .cancelled
  taken : s.taken ≤ s.results.length
  good : ∀ i c, s.ph i = .sending (.ok c) ∨ s.ph i = .done (.ok c) → .connectOk i c ∈ as
  bad : ∀ i, s.ph i = .sending .err ∨ s.ph i = .done .err → .prepareFail i ∈ as ∨ .connectFail i ∈ as

theorem Inv.init (n : Nat) (key : Nat → Key) : Inv (init n key) [] := by
  constructor <;> simp [PeerKernel.init]

theorem Inv.more {s : St} {as : List Act} (h : Inv s as) (a : Act) : Inv s (as ++ [a]) := by
  refine { h with good := ?_, bad := ?_ }
  · intro i c hc; exact List.mem_append_left _ (h.good i c hc)
  · intro i hc; exact (h.bad i hc).imp (List.mem_append_left _) (List.mem_append_left _)

theorem Inv.step {s : St} {as : List Act} (h : Inv s as) (a : Act) : Inv (step s a) (as ++ [a]) := by
  have hm := h.more a
  cases a with
  | prepareFail i =>
    simp only [PeerKernel.step]
    split
    · rename_i hc
      obtain ⟨h1, h2⟩ := hc
      constructor <;> intros <;> grind [upd, Phase.gone, Inv]
    · exact hm
  | prepared i =>
    simp only [PeerKernel.step]
    split
    · rename_i hc
      obtain ⟨h1, h2⟩ := hc
      constructor <;> intros <;> grind [upd, Phase.gone, Inv]
    · exact hm
  | connectFail i =>
    simp only [PeerKernel.step]
    split
    · rename_i hc
      obtain ⟨h1, h2⟩ := hc
      constructor <;> intros <;> grind [upd, Phase.gone, Inv]
    · exact hm
  | connectOk i c =>
    simp only [PeerKernel.step]
    split
    · rename_i hc
      obtain ⟨h1, h2⟩ := hc
      constructor <;> intros <;> grind [upd, Phase.gone, Inv]
    · exact hm
  | send i =>
    simp only [PeerKernel.step]
    split
    · rename_i hi
      split
      · rename_i o ho
        split
        · rename_i hr
          constructor <;> intros <;> grind [upd, Phase.gone, Inv]
        · rename_i hr
          have hx : (cancelAll s).ph i = .cancelled := by simp [cancelAll, hi, ho, Phase.finished]
          have hy : (cancelAll s).n = s.n := rfl
          constructor <;> intros <;> grind [cancelAll, Phase.gone, Phase.finished, Phase.gone_of_finished, Inv]
      · exact hm
    · exact hm
  | take =>
    simp only [PeerKernel.step]
    split
    · rename_i hc
      exact { hm with taken := hc.2 }
    · exact hm
  | dropRx =>
    simp only [PeerKernel.step]
    split
    · exact { hm with rx := by simp }
    · exact hm
  | dropFiles i =>
    simp only [PeerKernel.step]
    split
    · exact { hm with }
    · exact hm
  | finish ok =>
    simp only [PeerKernel.step]
    split
    · exact { hm with }
    · exact hm
  | file sid x =>
    simp only [PeerKernel.step]
    split
    · split
      · exact { hm with }
      · exact hm
    · exact hm
  | event e => exact { hm with }

theorem Inv.run {s : St} {as : List Act} (h : Inv s as) (bs : List Act) : Inv (run s bs) (as ++ bs) := by
  induction bs generalizing s as with
  | nil => rw [List.append_nil]; exact h
  | cons b bs ih => have := ih (h.step b); rwa [List.append_assoc] at this

theorem Inv.reach (n : Nat) (key : Nat → Key) (as : List Act) : Inv (PeerKernel.run (PeerKernel.init n key) as) as :=
  (Inv.init n key).run as

theorem Inv.lt {s : St} {as : List Act} (h : Inv s as) {i : Nat} (hp : s.ph i ≠ .preparing) : i < s.n := by
  by_cases hi : i < s.n
  · exact hi
  · exact absurd (h.low i (by omega)) hp

/-- Where the file handles go if the peers are different. -/
structure Sent (peer : Nat → Key) (s : St) : Prop where
  own : ∀ k i, s.act k = some i → i < s.n ∧ (k = s.key i ∨ k = peer i)
  conn : ∀ i, i < s.n → s.ph i = .connecting → s.act (s.key i) = some i
  made : ∀ i c, i < s.n → s.ph i = .sending (.ok c) ∨ s.ph i = .done (.ok c) → c = peer i ∧ s.act (peer i) = some i

theorem Sent.init (peer : Nat → Key) (n : Nat) (key : Nat → Key) : Sent peer (init n key) := by
  constructor <;> simp [PeerKernel.init]

theorem Sent.step {peer : Nat → Key} {s : St} (h : Sent peer s) (hd : Distinct s.n s.key peer) (a : Act)
    (ha : ∀ i c, a = .connectOk i c → c = peer i) : Sent peer (step s a) := by
  cases a with
  | prepareFail i =>
    simp only [PeerKernel.step]
    split
    · constructor <;> intros <;> grind [upd, Sent]
    · exact h
  | prepared i =>
    simp only [PeerKernel.step]
    split
    · constructor <;> intros <;> grind [upd, Sent, Distinct]
    · exact h
  | connectFail i =>
    simp only [PeerKernel.step]
    split
    · constructor <;> intros <;> grind [upd, Sent, Distinct]
    · exact h
  | connectOk i c =>
    have hc := ha i c rfl
    subst hc
    simp only [PeerKernel.step]
    split
    · rename_i hi
      have hk := h.conn i hi.1 hi.2
      have hact : settle s.act (s.key i) (peer i) =
          if peer i = s.key i then s.act else upd (upd s.act (s.key i) none) (peer i) (some i) := by
        simp only [settle, hk]
      rw [hact]
      constructor <;> intros <;> grind [upd, Sent, Distinct]
    · exact h
  | send i =>
    simp only [PeerKernel.step]
    split
    · split
      · split
        · constructor <;> intros <;> grind [upd, Sent]
        · refine ⟨h.own, fun j hj hp => ?_, fun j c hj hp => ?_⟩
          · simp only [cancelAll] at hp
            split at hp
            · cases hp
            · exact h.conn j hj hp
          · simp only [cancelAll] at hp
            split at hp
            · rcases hp with hp | hp <;> cases hp
            · exact h.made j c hj hp
      · exact h
    · exact h
  | take => simp only [PeerKernel.step]; split <;> exact { h with }
  | dropRx => simp only [PeerKernel.step]; split <;> exact { h with }
  | dropFiles i => simp only [PeerKernel.step]; split <;> exact { h with }
  | finish ok => simp only [PeerKernel.step]; split <;> exact { h with }
  | file sid x =>
    simp only [PeerKernel.step]
    split
    · split <;> exact { h with }
    · exact h
  | event e => exact { h with }

theorem Sent.run {peer : Nat → Key} {s : St} (h : Sent peer s) (hd : Distinct s.n s.key peer) (as : List Act)
    (ha : Connects peer as) : Sent peer (run s as) := by
  induction as generalizing s with
  | nil => exact h
  | cons a as ih =>
    refine ih (h.step hd a ?_) (by rw [step_n, step_key]; exact hd) ?_
    · intro i c hc; exact ha i c (by rw [hc]; exact List.mem_cons_self)
    · intro i c hc; exact ha i c (List.mem_cons_of_mem _ hc)

/-- The connection a handle belongs to if the packets name their makers. -/
theorem honest_conn {me sid : Nat} {h : Handle} (hm : me ≠ 0) (hh : Honest me sid h) :
    (h.by_ ≠ 0 ∧ h.by_ ≠ me → connOf sid h = (me, h.by_)) ∧ (h.by_ = 0 → connOf sid h = (me, 0) ∨ connOf sid h = (me, me)) ∧
    (h.by_ = me → connOf sid h = (me, me)) := by
  cases hh with
  | offer from_ id revfs =>
    by_cases h0 : from_ = 0
    · subst h0
      cases revfs <;> simp [inbound, target, VTarget.flip, VTarget.sessionCid, VTarget.targetCid, connOf, hm] <;>
        omega
    · by_cases h1 : from_ = me
      · subst h1
        cases revfs <;> simp [inbound, target, h0, VTarget.flip, VTarget.sessionCid, VTarget.targetCid, connOf]
      · have h1' : me ≠ from_ := fun e => h1 e.symm
        cases revfs <;>
          simp [inbound, target, h0, h1, h1', VTarget.flip, VTarget.sessionCid, VTarget.targetCid, connOf]
  | answer from_ id revfs h0 =>
    by_cases h1 : from_ = me
    · subst h1
      cases revfs <;> simp [outbound, VTarget.sessionCid, connOf, h0]
    · cases revfs <;> simp [outbound, VTarget.sessionCid, connOf, h0, h1, hm]
  | answerServer id revfs =>
    cases revfs <;> simp [outbound, VTarget.sessionCid, connOf, hm] <;> omega

end Verif.PeerKernel

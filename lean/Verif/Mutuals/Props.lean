import Verif.Mutuals.Lemmas

/-! Properties C46 (symmetry), C47 (deregistration takes effect), C54 (symmetry under concurrency). -/
namespace Verif.Mutuals
open Verif

/-- No operation of the history is split in two by another thread. -/
def Serial (ops : List Op) : Prop := ∀ op ∈ ops, ∀ a b, op ≠ .deregStart a b ∧ op ≠ .deregFinish a b

instance (ops : List Op) : Decidable (Serial ops) :=
  decidable_of_iff (∀ op ∈ ops, (match op with | .deregStart _ _ => false | .deregFinish _ _ => false | _ => true) = true)
    (by
      unfold Serial
      refine forall_congr' fun op => forall_congr' fun _ => ?_
      cases op <;> simp)

/-- **C46.** After every history of account creations, registrations, deregistrations and deletions processed one after
the other, A lists B exactly when B lists A, nobody lists a non-existing account, and nobody lists themselves. -/
theorem C46_symmetric (ops : List Op) (hs : Serial ops) :
    (∀ a b, b ∈ peers (after ops) a ↔ a ∈ peers (after ops) b) ∧
    (∀ a b, b ∈ peers (after ops) a → (after ops).accts.contains a = true ∧ (after ops).accts.contains b = true) ∧
    (∀ a, a ∉ peers (after ops) a) := by
  have h := inv_serial ops hs
  refine ⟨bal_mem h (serial_pending ops hs), fun a b hm => ?_, fun a hm => ?_⟩
  · have hp : 0 < cnt (after ops) a b := List.count_pos_iff.2 hm
    exact ⟨cnt_pos_contains _ a b hp, h.exist a b hp⟩
  · have := (self_zero ops a).1
    exact absurd (List.count_pos_iff.2 hm) (by unfold cnt at this; omega)

/-- **C46 (registrations take effect).** A registration that reports success leaves both accounts listing each other, in
every state. -/
theorem C46_registration_effective (s : Store) (a b : Nat) (hok : (register s a b).2 = .ok) :
    b ∈ peers (register s a b).1 a ∧ a ∈ peers (register s a b).1 b := by
  unfold register at hok ⊢
  by_cases hc : (s.accts.contains a && s.accts.contains b) = true
  · rw [if_pos hc] at hok ⊢
    by_cases hab : a = b
    · rw [if_pos hab] at hok; simp at hok
    · rw [if_neg hab]
      refine ⟨List.count_pos_iff.1 ?_, List.count_pos_iff.1 ?_⟩
      · have := register_cnt s a b hab a b
        rw [if_pos (Or.inl ⟨rfl, rfl⟩)] at this
        exact lt_of_lt_of_eq (Nat.succ_pos _) this.symm
      · have := register_cnt s a b hab b a
        rw [if_pos (Or.inr ⟨rfl, rfl⟩)] at this
        exact lt_of_lt_of_eq (Nat.succ_pos _) this.symm
  · rw [if_neg hc] at hok; simp at hok

example : (register (after [.create 1, .create 2]) 1 2).2 = .ok := by decide

/-- A serial history with a deletion. -/
example : let ops : List Op := [.create 1, .create 2, .create 3, .register 1 2, .register 3 1, .register 2 3, .delete 2]
    Serial ops ∧ peers (after ops) 1 = [3] ∧ peers (after ops) 3 = [1] ∧ peers (after ops) 2 = [] := by decide

/-- **C47 is false.** Two registrations of the same pair (nothing prevents the second) followed by one successful
deregistration leave the two accounts registered to each other. -/
theorem C47_counterexample_duplicate :
    let ops : List Op := [.create 1, .create 2, .register 1 2, .register 2 1]
    (step (after ops) (.deregister 1 2)).2 = .ok ∧
    2 ∈ peers (after (ops ++ [.deregister 1 2])) 1 ∧ 1 ∈ peers (after (ops ++ [.deregister 1 2])) 2 := by decide

/-- **C47, exact statement.** In every serial history, a successful deregistration of A and B leaves A listing B exactly
if A listed B at least twice before, and the same for B. -/
theorem C47_exact (ops : List Op) (hs : Serial ops) (a b : Nat)
    (hok : (step (after ops) (.deregister a b)).2 = .ok) :
    let s' := after (ops ++ [.deregister a b])
    (b ∈ peers s' a ↔ 2 ≤ (peers (after ops) a).count b) ∧ (a ∈ peers s' b ↔ 2 ≤ (peers (after ops) a).count b) := by
  have hself := (self_zero ops a).1
  have hd : (after ops).deadlocked = false := by
    by_contra hd
    have : (after ops).deadlocked = true := by simpa using hd
    simp [step, this] at hok
  have e : after (ops ++ [.deregister a b]) = (deregister (after ops) a b).1 := by
    rw [after_snoc]; simp [step, hd]
  have hok' : (deregister (after ops) a b).2 = .ok := by simpa [step, hd] using hok
  have h1 := deregister_ok (after ops) a b hself hok' a b
  have h2 := deregister_ok (after ops) a b hself hok' b a
  rw [if_pos (Or.inl ⟨rfl, rfl⟩)] at h1
  rw [if_pos (Or.inr ⟨rfl, rfl⟩)] at h2
  have hb := (inv_serial ops hs).bal a b
  have h0 : ∀ x y, pend (after ops) x y = 0 := by intro x y; simp [pend, serial_pending ops hs]
  rw [h0, h0] at hb
  unfold cnt at h1 h2 hb
  show (b ∈ peers (after (ops ++ [.deregister a b])) a ↔ _) ∧ (a ∈ peers (after (ops ++ [.deregister a b])) b ↔ _)
  rw [e, ← List.count_pos_iff, ← List.count_pos_iff]
  omega

/-- The server never registers a pair that is already registered. -/
def NoRedundant (ops : List Op) : Prop :=
  ∀ i < ops.length, ops[i]?.any
    (fun | .register a b => decide (b ∈ peers (after (ops.take i)) a) | _ => false) = false

instance (ops : List Op) : Decidable (NoRedundant ops) := by unfold NoRedundant; infer_instance

theorem NoRedundant.init {ops : List Op} {op : Op} (h : NoRedundant (ops ++ [op])) : NoRedundant ops := by
  intro i hi
  have := h i (by simp; omega)
  rwa [List.getElem?_append_left hi, List.take_append_of_le_length (by omega)] at this

theorem NoRedundant.last {ops : List Op} {a b : Nat} (h : NoRedundant (ops ++ [.register a b])) :
    b ∉ peers (after ops) a := by
  have := h ops.length (by simp)
  simpa using this

/-- **C47 (partial).** If no pair is registered while it is already registered, then after a successful deregistration
neither account lists the other. Missing: the code does not enforce the hypothesis. -/
theorem C47_removed_partial (ops : List Op) (hs : Serial ops) (hn : NoRedundant ops) (a b : Nat)
    (hok : (step (after ops) (.deregister a b)).2 = .ok) :
    let s' := after (ops ++ [.deregister a b])
    b ∉ peers s' a ∧ a ∉ peers s' b := by
  have hle : ∀ ops : List Op, Serial ops → NoRedundant ops → ∀ x y, cnt (after ops) x y ≤ 1 := by
    intro ops
    induction ops using List.reverseRecOn with
    | nil => intro _ _ x y; exact Nat.zero_le 1
    | append_singleton ops op ih =>
      intro hs hn x y
      have hs' : Serial ops := fun o ho => hs o (List.mem_append_left _ ho)
      have hn' : NoRedundant ops := hn.init
      have ih := ih hs' hn'
      have hinv := inv_serial ops hs'
      have hpn := serial_pending ops hs'
      rw [after_snoc]
      unfold step
      split
      · exact ih x y
      · cases op with
        | create c =>
          simp only [create]
          split
          · exact ih x y
          · unfold cnt peers
            by_cases hx : x = c
            · subst hx; simp
            · rw [show ({ after ops with accts := (after ops).accts.insert c [] } : Store).accts.get? x =
                (after ops).accts.get? x from AMap.get?_insert_ne _ _ hx]
              exact ih x y
        | register u v =>
          simp only [register]
          split
          · split
            · exact ih x y
            · rename_i huv
              rw [register_cnt (after ops) u v huv]
              have h1 := hn.last
              have h2 : u ∉ peers (after ops) v := fun h => h1 ((bal_mem hinv hpn u v).2 h)
              by_cases hxy : (x = u ∧ y = v) ∨ (x = v ∧ y = u)
              · rw [if_pos hxy]
                rcases hxy with ⟨rfl, rfl⟩ | ⟨rfl, rfl⟩
                · have : cnt (after ops) x y = 0 := List.count_eq_zero.2 h1
                  omega
                · have : cnt (after ops) x y = 0 := List.count_eq_zero.2 h2
                  omega
              · rw [if_neg hxy]; exact ih x y
          · exact ih x y
        | deregStart u v => exact absurd rfl (hs _ (by simp) u v).1
        | deregFinish u v => exact absurd rfl (hs _ (by simp) u v).2
        | delete c =>
          simp only [delete_eq]
          have := ih x y
          split
          · exact this
          · split
            · rw [delLoop_cnt, erase_cnt]; split <;> (try split) <;> omega
            · exact this
        | deregister u v =>
          have := ih x y
          simp only [deregister]
          split
          · rename_i hok
            obtain ⟨-, -, -, e⟩ := deregStart_ok (after ops) u v hok
            have hmem : (v, u) ∈ (deregStart (after ops) u v).1.pending := by rw [e]; exact List.mem_cons_self ..
            rw [deregFinish_cnt _ v u hmem, e]
            have e2 : cnt { (removePeer (after ops) u v).1 with pending := (v, u) :: (after ops).pending } x y =
              if x = u ∧ y = v then cnt (after ops) x y - 1 else cnt (after ops) x y :=
              removePeer_cnt (after ops) u v x y
            rw [e2]; split <;> split <;> omega
          · rename_i hok
            rw [deregStart_not_ok _ u v hok]; exact this
  have h := C47_exact ops hs a b hok
  have hc := hle ops hs hn a b
  unfold cnt at hc
  exact ⟨fun h1 => absurd (h.1.1 h1) (by omega), fun h1 => absurd (h.2.1 h1) (by omega)⟩

/-- The hypotheses are met by a history that registers, deregisters and registers again. -/
example : let ops : List Op := [.create 1, .create 2, .register 1 2, .deregister 2 1, .register 2 1]
    Serial ops ∧ NoRedundant ops ∧ (step (after ops) (.deregister 1 2)).2 = .ok := by
  decide

/-- **C54 is false.** With two deregistrations of one pair running concurrently in opposite directions and a
re-registration in between, the server ends up with account 2 listing account 1 but not conversely, and nothing is in
progress any more. -/
theorem C54_counterexample_concurrent :
    let s := after [.create 1, .create 2, .register 1 2, .deregStart 1 2, .deregStart 2 1, .deregFinish 2 1,
      .register 1 2, .deregFinish 1 2]
    s.pending = [] ∧ 1 ∈ peers s 2 ∧ 2 ∉ peers s 1 := by decide

/-- **C54 (partial).** For every interleaving in which no two deregistrations of the same pair run in opposite directions
at the same time: whenever no deregistration is in progress, listing is symmetric. Missing: opposite concurrent
deregistrations, for which the claim is false. -/
theorem C54_symmetric_partial (ops : List Op) (hcc : ∀ op ∈ ops, ∀ a b, op ≠ .deregister a b)
    (hno : ∀ p, p <+: ops → ∀ a b, (a, b) ∈ (after p).pending → (b, a) ∉ (after p).pending)
    (hq : (after ops).pending = []) (a b : Nat) :
    b ∈ peers (after ops) a ↔ a ∈ peers (after ops) b := by
  refine bal_mem ?_ hq a b
  clear hq
  induction ops using List.reverseRecOn with
  | nil => exact inv_empty
  | append_singleton ops op ih =>
    have ih := ih (fun o ho => hcc o (List.mem_append_left _ ho))
      (fun p hp => hno p (hp.trans (List.prefix_append _ _)))
    rw [after_snoc]
    by_cases hf : ∃ v u, op = .deregFinish v u ∧ (v, u) ∉ (after ops).pending
    · obtain ⟨v, u, rfl, hm⟩ := hf
      have : (step (after ops) (.deregFinish v u)).1 = after ops := by
        unfold step; split
        · rfl
        · simp only [deregFinish]; rw [if_neg hm]
      rw [this]; exact ih
    · refine inv_step _ op ih (fun a => (self_zero ops a).1) (fun v u h => ?_)
      rcases h with rfl | rfl
      · have hm : (v, u) ∈ (after ops).pending := by
          by_contra hm; exact hf ⟨v, u, rfl, hm⟩
        exact hno ops (List.prefix_append _ _) v u hm
      · exact absurd rfl (hcc _ (by simp) u v)

/-- The hypotheses are met by overlapping deregistrations of different pairs and of one pair in the same direction. -/
example : let ops : List Op := [.create 1, .create 2, .create 3, .register 1 2, .register 1 2, .register 1 3,
      .deregStart 1 2, .deregStart 1 3, .deregStart 1 2, .deregFinish 2 1, .deregFinish 3 1, .deregFinish 2 1]
    (∀ op ∈ ops, ∀ a b, op ≠ .deregister a b) ∧ (after ops).pending = [] ∧
    (∀ p ∈ ops.inits, ∀ e ∈ (after p).pending, (e.2, e.1) ∉ (after p).pending) := by
  refine ⟨by simp, by decide, by decide⟩

end Verif.Mutuals

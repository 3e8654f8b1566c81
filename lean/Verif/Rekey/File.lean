import Verif.Rekey.Props
/-
C84: packets that keep the ratchet of an earlier time.
Sources: /repo/citadel_proto/src/proto/session.rs lines 1475-1505 (file to the server: `latest_hr`), 1584-1617 (file to a
           peer: `latest_usable_ratchet`): the ratchet at the start of the transfer goes to `scramble_encrypt_source`, which
           encrypts all groups of the file with it;
         /repo/citadel_proto/src/proto/packet_processor/primary_group_packet.rs lines 103-110: a packet whose version is not
           held is dropped (`get_orientation_safe_ratchet` is `None`);
         /repo/citadel_crypt/src/toolset.rs (`MAX_RATCHETS_IN_MEMORY`: 6 or 32).
-/
namespace Verif.Rekey

variable {maxR : Nat}

/-- Ratchets are only added as the newest one, and only removed when the store is full. -/
def Store (maxR : Nat) (x x' : EP) : Prop :=
  x.most ≤ x'.most ∧ ∀ u, u ≤ x.most → x'.keys u = x.keys u ∨ (x'.keys u = none ∧ u + maxR ≤ x'.most + 1)

theorem Store.of_eq {x x' : EP} (hm : x'.most = x.most) (hk : x'.keys = x.keys) : Store maxR x x' :=
  ⟨Nat.le_of_eq hm.symm, fun u _ => Or.inl (by rw [hk])⟩

theorem Store.trans {x y z : EP} (h1 : Store maxR x y) (h2 : Store maxR y z) : Store maxR x z := by
  refine ⟨Nat.le_trans h1.1 h2.1, fun u hu => ?_⟩
  rcases h2.2 u (Nat.le_trans hu h1.1) with e | ⟨e, hb⟩
  · rcases h1.2 u hu with e' | ⟨e', hb⟩
    · exact Or.inl (e.trans e')
    · exact Or.inr ⟨e.trans e', Nat.le_trans hb (Nat.succ_le_succ h2.1)⟩
  · exact Or.inr ⟨e, hb⟩

theorem store_commit (x : EP) (k : Key) (b : BPc) : Store maxR x { commit x k with b := b } := by
  refine ⟨Nat.le_succ _, fun u hu => Or.inl ?_⟩
  simp only [commit, put]
  rw [if_neg (by omega)]

theorem store_dereg {x x' : EP} {v : Nat} (b : BPc) (h : dereg maxR x v = some x') :
    Store maxR x { x' with b := b } := by
  unfold dereg at h
  split at h
  · cases h
  · split at h
    · cases h
    · cases h
      refine ⟨Nat.le_refl _, fun u _ => ?_⟩
      dsimp only
      by_cases e : u = x.oldest
      · right
        refine ⟨by rw [del, if_pos e], by omega⟩
      · left
        rw [del_ne _ e]

theorem store_skip {x y : EP} (hm : y.most = x.most) (hk : y.keys = x.keys) : Store maxR x (skip y) := by
  unfold skip
  split <;> exact Store.of_eq hm hk

theorem bLocal_store (init : Bool) (x : EP) : Store maxR x (bLocal maxR init x) := by
  unfold bLocal
  split
  all_goals repeat' split
  all_goals first
    | exact Store.of_eq rfl rfl
    | exact store_skip rfl rfl
    | exact store_commit _ _ _
    | (rename_i h; exact store_dereg _ h)

theorem bStep_store (init : Bool) (x : EP) (inn : List Msg) (fr : Nat) :
    Store maxR x (bStep maxR init x inn fr).1 := by
  unfold bStep
  split
  · split <;> exact Store.of_eq rfl rfl
  all_goals first | exact Store.of_eq rfl rfl | exact store_commit _ _ _ | exact bLocal_store init x

theorem tStep_store (x : EP) (fr : Nat) : Store maxR x (tStep x fr).1 := by
  unfold tStep
  split
  · exact Store.of_eq rfl rfl
  · unfold tLocal
    dsimp only
    split
    all_goals repeat' split
    all_goals exact Store.of_eq rfl rfl

theorem fine_store (s : Sys) (a : Act) :
    Store maxR s.i (fineStep maxR s a).i ∧ Store maxR s.n (fineStep maxR s a).n := by
  rcases a with ⟨_ | _, fr⟩ | ⟨_ | _, fr⟩
  · exact ⟨Store.of_eq rfl rfl, bStep_store ..⟩
  · exact ⟨bStep_store .., Store.of_eq rfl rfl⟩
  · exact ⟨Store.of_eq rfl rfl, tStep_store ..⟩
  · exact ⟨tStep_store .., Store.of_eq rfl rfl⟩

theorem fine_run_store (s : Sys) (acts : List Act) :
    Store maxR s.i (run (fineStep maxR) s acts).i ∧ Store maxR s.n (run (fineStep maxR) s acts).n := by
  induction acts generalizing s with
  | nil => exact ⟨Store.of_eq rfl rfl, Store.of_eq rfl rfl⟩
  | cons a as ih =>
    obtain ⟨a1, a2⟩ := fine_store s a
    obtain ⟨b1, b2⟩ := ih (fineStep maxR s a)
    exact ⟨a1.trans b1, a2.trans b2⟩

/-! ### C84 -/

/-- A ratchet is still held, unchanged, as long as the newest version is less than `maxR - 1` above it, whatever the
scheduler does, from any state: a file that is through by then can be decrypted.
Missing: longer transfers, for which it is false (`C84_counterexample_small`, `C84_counterexample_large`). -/
theorem C84_held_partial (s : Sys) (acts : List Act) (u : Nat) (k : Key) :
    (s.i.keys u = some k → u ≤ s.i.most → (run (fineStep maxR) s acts).i.most + 1 < u + maxR →
      (run (fineStep maxR) s acts).i.keys u = some k) ∧
    (s.n.keys u = some k → u ≤ s.n.most → (run (fineStep maxR) s acts).n.most + 1 < u + maxR →
      (run (fineStep maxR) s acts).n.keys u = some k) := by
  obtain ⟨h1, h2⟩ := fine_run_store s acts
  constructor
  · intro hk hu hm
    rcases h1.2 u hu with e | ⟨_, h⟩
    · rw [e, hk]
    · omega
  · intro hk hu hm
    rcases h2.2 u hu with e | ⟨_, h⟩
    · rw [e, hk]
    · omega

/-- A ratchet that was dropped never comes back, whatever the scheduler does: all later packets of the file are lost. -/
theorem C84_gone_for_good (s : Sys) (acts : List Act) (u : Nat) :
    (s.i.keys u = none → u ≤ s.i.most → (run (fineStep maxR) s acts).i.keys u = none) ∧
    (s.n.keys u = none → u ≤ s.n.most → (run (fineStep maxR) s acts).n.keys u = none) := by
  obtain ⟨h1, h2⟩ := fine_run_store s acts
  constructor
  · intro hk hu
    rcases h1.2 u hu with e | ⟨e, _⟩
    · rw [e, hk]
    · exact e
  · intro hk hu
    rcases h2.2 u hu with e | ⟨e, _⟩
    · rw [e, hk]
    · exact e

/-- One call of `trigger_rekey` by the initiator, and everything that follows from it. -/
def oneRekey : List Act := burst [(.trig true 1, 4), (.bg false 2, 6), (.bg true 3, 5), (.bg false 4, 4), (.bg true 5, 2)]

/-- `n` of them. -/
def rekeys (n : Nat) : List Act := (List.replicate n oneRekey).flatten

/-- A file is started at version 0.  After five re-keys (in the small configuration of six ratchets) the receiver, at
rest and in step with the sender, no longer holds the ratchet its groups are encrypted with; both drop it. -/
theorem C84_counterexample_small :
    let s := run (coopStep 6) (start 0 ⟨0, 0⟩) (rekeys 5)
    s.i.latest = 5 ∧ s.n.latest = 5 ∧ s.toI = [] ∧ s.toN = [] ∧ s.n.b = .recv ∧ s.i.b = .recv ∧
      s.n.keys 0 = none ∧ s.i.keys 0 = none := by decide +kernel

/-- The same with 32 ratchets, after 31 re-keys. -/
theorem C84_counterexample_large :
    let s := run (coopStep 32) (start 0 ⟨0, 0⟩) (rekeys 31)
    s.i.latest = 31 ∧ s.n.latest = 31 ∧ s.toI = [] ∧ s.toN = [] ∧ s.n.b = .recv ∧ s.i.b = .recv ∧
      s.n.keys 0 = none ∧ s.i.keys 0 = none := by decide +kernel

/-- After one re-key less the file can still be decrypted. -/
example :
    let s := run (coopStep 6) (start 0 ⟨0, 0⟩) (rekeys 4)
    s.i.latest = 4 ∧ s.n.latest = 4 ∧ s.n.most + 1 < 0 + 6 ∧ s.n.keys 0 = some ⟨0, 0⟩ := by decide +kernel

end Verif.Rekey

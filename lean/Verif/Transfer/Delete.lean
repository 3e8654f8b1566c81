import Verif.Transfer.Props
/-
C89: a file which is deleted after a pull (`delete_on_pull`) has been received.

The holder of a remote file answers a pull with `process_outbound_file` and passes a hook which removes the file:
/repo/citadel_proto/src/proto/packet_processor/file_packet.rs lines 278-292. The hook is run when the loop over the
groups ends (/repo/citadel_proto/src/proto/session.rs line 1889), that is, when the loop has been woken after the last
group.
-/
namespace Verif.Transfer

theorem hook_position {c : Cfg} (hW : c.WF) (hn : 0 < c.n) {x : St} (h : Reach c x) (hh : x.s.hook = true) :
    ∃ k m, x.r = rAt c k m ∧ m ≤ (c.waves k).length ∧ k ≤ c.n ∧ c.n ≤ k + 1 ∧ (k + 1 = c.n → 2 ≤ m ∧ k < c.stop) := by
  obtain ⟨k, m, sent, a, I⟩ := inv_reach hW h
  obtain ⟨h1, h2⟩ := I.hook hh
  have h3 := I.tok2 (c.n - 1) (by omega) (.inl h2)
  have h4 := I.cnt (c.n - 1)
  have hs := stop_le c hn
  have hk := I.hk
  refine ⟨k, m, I.hr, I.hm, by omega, ?_, ?_⟩
  · refine Decidable.byContradiction fun hc => ?_
    rw [got, if_neg (by omega : ¬ c.n - 1 < k), if_neg (by omega : ¬ c.n - 1 = k)] at h4
    omega
  · intro he
    rw [got, if_neg (by omega : ¬ c.n - 1 < k), if_pos (by omega : c.n - 1 = k)] at h4
    have := I.hmF
    omega

/-- **C89.** When the file is deleted, the receiver has stored every group except possibly the last one. -/
theorem C89_all_but_last_group {c : Cfg} (hW : c.WF) (hn : 0 < c.n) {x : St} (h : Reach c x) (hh : x.s.hook = true) :
    x.stored = c.content ∨ x.stored = ((c.groups.take (c.n - 1)).map List.flatten).flatten := by
  obtain ⟨k, m, hr, _, h1, h2, _⟩ := hook_position hW hn h hh
  have hk : k = c.n ∨ k = c.n - 1 := by omega
  unfold St.stored
  rw [hr]
  rcases hk with rfl | rfl
  · refine .inl ?_
    simp only [rAt, Cfg.content, Cfg.n]
    rw [List.take_of_length_le (Nat.le_refl _)]
  · exact .inr rfl

/-- **C89 (partial).** If the last group is sent in one wave, the file has been stored by the receiver when it is
deleted. Missing: a last group of several waves, see `C89_counterexample`. -/
theorem C89_deleted_was_received_partial {c : Cfg} (hW : c.WF) (hn : 0 < c.n) (h1 : (c.waves (c.n - 1)).length = 1)
    {x : St} (h : Reach c x) (hh : x.s.hook = true) : x.stored = c.content := by
  obtain ⟨k, m, hr, hm, hk1, hk2, hk3⟩ := hook_position hW hn h hh
  have hk : k = c.n := by
    refine Decidable.byContradiction fun hc => ?_
    have he : k = c.n - 1 := by omega
    have := hk3 (by omega)
    rw [he, h1] at hm
    omega
  unfold St.stored
  rw [hr, hk]
  simp only [rAt, Cfg.content, Cfg.n]
  rw [List.take_of_length_le (Nat.le_refl _)]

/-- **C89.** A file which is reported as received too early (C87) is not deleted: if the receiver dropped a group, the
loop never ends. -/
theorem C89_truncated_is_kept {c : Cfg} (hW : c.WF) (hs : 0 < c.start) (hn : 2 ≤ c.n) {x : St} (h : Reach c x) :
    x.s.hook = false := by
  refine Decidable.byContradiction fun hc => ?_
  have hh : x.s.hook = true := by simpa using hc
  obtain ⟨k, m, hr, hm, hk1, hk2, hk3⟩ := hook_position hW (by omega) h hh
  obtain ⟨k', m', _, _, I⟩ := inv_reach hW h
  have e := I.hr
  rw [hr] at e
  have hd := congrArg (fun r => r.disk.length) e
  have hk' := I.hk
  simp only [rAt, List.length_map, List.length_take] at hd
  have hst : c.stop ≤ c.n - 1 := by unfold Cfg.stop; omega
  have hl : c.groups.length = c.n := rfl
  by_cases hkn : k + 1 = c.n
  · have := hk3 hkn; omega
  · omega

/-! ### Counterexample -/

/-- The first file of a session: one group of three waves. -/
def waves3 : Cfg := { start := 0, groups := [[[1], [2], [3]]] }

theorem waves3_wf : waves3.WF := by
  intro g hg
  simp only [waves3, List.mem_cons, List.not_mem_nil, or_false] at hg
  subst hg; simp

/-- The file is deleted when two of the three waves are acknowledged. -/
def cex : St :=
  let x1 : St := { init with
    s := { init.s with nxt := 1, wait := true, trans := upd init.s.trans 0 (some ⟨0, 0, true⟩) }
    toR := [.hdr 0 3] }
  let rc (x : St) : St := match x.toR with
    | [] => x
    | m :: rest => { x with r := (recv 1 x.r m).1, toR := rest, toS := x.toS ++ (recv 1 x.r m).2 }
  let he (e : Bool) (x : St) : St := match x.toS with
    | [] => x
    | m :: rest => { x with s := (hear waves3 x.s e m).1, toS := rest, toR := x.toR ++ (hear waves3 x.s e m).2 }
  let x6 := he true (rc (he false (rc (he false (rc x1)))))
  { x6 with s := { x6.s with wait := false, tokens := 0, hook := true } }

theorem rc_reach {c : Cfg} {x : St} (h : Reach c x) : Reach c (match x.toR with
    | [] => x
    | m :: rest => { x with r := (recv c.n x.r m).1, toR := rest, toS := x.toS ++ (recv c.n x.r m).2 }) := by
  split
  · exact h
  · rename_i m rest hx; exact .step h (.recv x m rest hx)

theorem he_reach {c : Cfg} (e : Bool) {x : St} (h : Reach c x) : Reach c (match x.toS with
    | [] => x
    | m :: rest => { x with s := (hear c x.s e m).1, toS := rest, toR := x.toR ++ (hear c x.s e m).2 }) := by
  split
  · exact h
  · rename_i m rest hx; exact .step h (.hear x m rest e hx)

theorem cex_reach : Reach waves3 cex := by
  have h1 := Reach.step (c := waves3) .init (.send init rfl (by decide))
  have h6 := he_reach true (rc_reach (he_reach false (rc_reach (he_reach false (rc_reach h1)))))
  exact .step (.step h6 (.wake _ (by decide) (by decide))) (.hook _ rfl (by decide) (by decide))

/-- **C89 is false in general.** The file is deleted by its holder although the receiver has stored nothing of it: two
of the three waves of its only group were acknowledged. -/
theorem C89_counterexample : ∃ x, Reach waves3 x ∧ waves3.WF ∧ x.s.hook = true ∧ x.stored = [] ∧
    x.toR = [.wave 0 [3]] ∧ waves3.content = [1, 2, 3] :=
  ⟨cex, cex_reach, waves3_wf, by decide, by decide, by decide, by decide⟩

/-- The hypotheses of the positive statement are met. -/
def waves1 : Cfg := { start := 0, groups := [[[1], [2]], [[3]]] }

example : waves1.WF ∧ 0 < waves1.n ∧ (waves1.waves (waves1.n - 1)).length = 1 := by
  refine ⟨?_, by decide, by decide⟩
  intro g hg
  simp only [waves1, List.mem_cons, List.not_mem_nil, or_false] at hg
  rcases hg with rfl | rfl <;> simp

end Verif.Transfer

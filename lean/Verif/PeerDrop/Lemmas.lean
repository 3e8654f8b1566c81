import Verif.PeerDrop.Spec
/-
Lemmas on the direct streams of peers.
-/
namespace Verif.PeerDrop

theorem run_append (s : Node) (as bs : List Act) : run s (as ++ bs) = run (run s as) bs := by
  induction as generalizing s with
  | nil => rfl
  | cons a as ih => exact ih _

theorem run_inv (P : Node → Prop) (ok : Act → Prop)
    (h : ∀ s a, ok a → P s → P (step s a).1) (s : Node) (as : List Act) (hok : ∀ a ∈ as, ok a) (hs : P s) :
    P (run s as) := by
  induction as generalizing s with
  | nil => exact hs
  | cons a as ih =>
    exact ih _ (fun b hb => hok b (List.mem_cons_of_mem _ hb)) (h s a (hok a List.mem_cons_self) hs)

/-! ### What the small functions leave alone -/

@[simp] theorem stopOf_vconn (s : Node) (v : VConn) : (stopOf s v).vconn = s.vconn := by
  unfold stopOf stop; split <;> (try split) <;> rfl
@[simp] theorem stopOf_tasks (s : Node) (v : VConn) : (stopOf s v).tasks = s.tasks := by
  unfold stopOf stop; split <;> (try split) <;> rfl
@[simp] theorem stopOf_made (s : Node) (v : VConn) : (stopOf s v).made = s.made := by
  unfold stopOf stop; split <;> (try split) <;> rfl
@[simp] theorem stopOf_stale (s : Node) (v : VConn) : (stopOf s v).stale = s.stale := by
  unfold stopOf stop; split <;> (try split) <;> rfl
@[simp] theorem stopOf_mark (s : Node) (v : VConn) : (stopOf s v).mark = s.mark := by
  unfold stopOf stop; split <;> (try split) <;> rfl
@[simp] theorem stopOf_told (s : Node) (v : VConn) : (stopOf s v).told = s.told := by
  unfold stopOf stop; split <;> (try split) <;> rfl
@[simp] theorem stopOf_cmds (s : Node) (v : VConn) : (stopOf s v).cmds = s.cmds := by
  unfold stopOf stop; split <;> (try split) <;> rfl
@[simp] theorem stopOf_wasm (s : Node) (v : VConn) : (stopOf s v).wasm = s.wasm := by
  unfold stopOf stop; split <;> (try split) <;> rfl
@[simp] theorem stopOf_me (s : Node) (v : VConn) : (stopOf s v).me = s.me := by
  unfold stopOf stop; split <;> (try split) <;> rfl
@[simp] theorem stopOf_peer (s : Node) (v : VConn) : (stopOf s v).peer = s.peer := by
  unfold stopOf stop; split <;> (try split) <;> rfl
@[simp] theorem stopOf_next (s : Node) (v : VConn) : (stopOf s v).next = s.next := by
  unfold stopOf stop; split <;> (try split) <;> rfl

theorem stopOf_ids (s : Node) (v : VConn) : (stopOf s v).streams.map (·.id) = s.streams.map (·.id) := by
  unfold stopOf stop
  split
  · split
    · rfl
    · simp only [List.map_map]
      apply List.map_congr_left
      intro t _
      simp only [Function.comp]
      split <;> rfl
  · rfl

@[simp] theorem remove_vconn (s : Node) : (remove s).vconn = none := by
  unfold remove; split <;> simp_all
@[simp] theorem remove_made (s : Node) : (remove s).made = s.made := by
  unfold remove; split <;> simp
@[simp] theorem remove_stale (s : Node) : (remove s).stale = s.stale := by
  unfold remove; split <;> simp
@[simp] theorem remove_mark (s : Node) : (remove s).mark = s.mark := by
  unfold remove; split <;> simp
@[simp] theorem remove_told (s : Node) : (remove s).told = s.told := by
  unfold remove; split <;> simp
@[simp] theorem remove_cmds (s : Node) : (remove s).cmds = s.cmds := by
  unfold remove; split <;> simp
@[simp] theorem remove_wasm (s : Node) : (remove s).wasm = s.wasm := by
  unfold remove; split <;> simp
theorem remove_ids (s : Node) : (remove s).streams.map (·.id) = s.streams.map (·.id) := by
  unfold remove; split
  · rfl
  · exact stopOf_ids _ _
theorem remove_tasks_none {s : Node} (h : s.vconn = none) : (remove s).tasks = s.tasks := by
  unfold remove; rw [h]
theorem remove_tasks_some {s : Node} {v : VConn} (h : s.vconn = some v) :
    (remove s).tasks = if v.notifier then s.tasks ++ [v.id] else s.tasks := by
  unfold remove; rw [h]

@[simp] theorem keep_vconn (s : Node) : (keep s).vconn = s.vconn := by unfold keep; split <;> simp_all
@[simp] theorem keep_made (s : Node) : (keep s).made = s.made := by unfold keep; split <;> rfl
@[simp] theorem keep_mark (s : Node) : (keep s).mark = s.mark := by unfold keep; split <;> rfl
@[simp] theorem keep_told (s : Node) : (keep s).told = s.told := by unfold keep; split <;> rfl
@[simp] theorem keep_cmds (s : Node) : (keep s).cmds = s.cmds := by unfold keep; split <;> rfl
@[simp] theorem keep_tasks (s : Node) : (keep s).tasks = s.tasks := by unfold keep; split <;> rfl
@[simp] theorem keep_wasm (s : Node) : (keep s).wasm = s.wasm := by unfold keep; split <;> rfl
@[simp] theorem keep_streams (s : Node) : (keep s).streams = s.streams := by unfold keep; split <;> rfl

@[simp] theorem tell_vconn (s : Node) (e : Ev) : (tell s e).vconn = s.vconn := rfl
@[simp] theorem tell_made (s : Node) (e : Ev) : (tell s e).made = s.made := rfl
@[simp] theorem tell_stale (s : Node) (e : Ev) : (tell s e).stale = s.stale := rfl
@[simp] theorem tell_mark (s : Node) (e : Ev) : (tell s e).mark = s.mark := rfl
@[simp] theorem tell_tasks (s : Node) (e : Ev) : (tell s e).tasks = s.tasks := rfl
@[simp] theorem tell_cmds (s : Node) (e : Ev) : (tell s e).cmds = s.cmds := rfl
@[simp] theorem tell_wasm (s : Node) (e : Ev) : (tell s e).wasm = s.wasm := rfl
@[simp] theorem tell_streams (s : Node) (e : Ev) : (tell s e).streams = s.streams := rfl
@[simp] theorem tell_told (s : Node) (e : Ev) : (tell s e).told = s.told ++ [e] := rfl

/-! ### What one step is -/

/-- The effect of a step on everything but the streams. -/
inductive Eff (s : Node) : Act → Node → Option Nat → Prop
  /-- Nothing but streams (and their count) changes. -/
  | quiet (a : Act) (s' : Node) (hv : s'.vconn = s.vconn) (hst : s'.stale = s.stale) (hm : s'.mark = s.mark)
      (ht : s'.tasks = s.tasks) (hc : s'.cmds = s.cmds) (htd : s'.told = s.told) (hmd : s'.made = s.made)
      (ha : ∀ id, a ≠ .dropChannel id) (hb : ∀ id, a ≠ .create id) : Eff s a s' none
  | refused (id : Nat) (v : VConn) (hv : s.vconn = some v) (hact : v.active = true) (s' : Node)
      (he : s' = { s with cmds := s.cmds ++ [id] }) : Eff s (.create id) s' none
  | made (id : Nat) (hin : ∀ v, s.vconn = some v → v.active = false) (s' : Node)
      (he : s' = { remove s with vconn := some { id := id }, stale := none, made := id :: s.made }) :
      Eff s (.create id) s' none
  | opened (l : Bool) (v : VConn) (hv : s.vconn = some v) (s' : Node) (v' : VConn) (hv' : s'.vconn = some v')
      (hid : v'.id = v.id) (hver : v'.ver = v.ver) (hold : v'.old = v.old) (hact : v'.active = v.active)
      (hnot : v'.notifier = true ∨ v'.notifier = v.notifier)
      (hst : s'.stale = s.stale) (hm : s'.mark = if s.wasm then s.mark else false)
      (ht : s'.tasks = s.tasks) (hc : s'.cmds = s.cmds) (htd : s'.told = s.told) (hmd : s'.made = s.made) :
      Eff s (.openStream l) s' none
  | ended (n : Nat) (v : VConn) (hv : s.vconn = some v) (t : Strm) (hf : findStream s n = some t)
      (hid : s.wasm = true ∨ v.id = t.id) (s' : Node)
      (he : s' = remove (keep (dropStream s n))) : Eff s (.endStream n) s' none
  | failed (n : Nat) (hmark : s.mark = false) (s' : Node) (hv : s'.vconn = s.vconn) (hst : s'.stale = s.stale)
      (hm : s'.mark = true) (ht : s'.tasks = s.tasks) (hc : s'.cmds = s.cmds) (htd : s'.told = s.told ++ [.failed n])
      (hmd : s'.made = s.made) : Eff s (.failStream n) s' none
  | skipped (i : Nat) (id : Nat) (hi : s.tasks[i]? = some id) (hmark : s.mark = true) (s' : Node)
      (he : s' = { s with tasks := s.tasks.eraseIdx i }) : Eff s (.runTask i) s' none
  | late (i : Nat) (id : Nat) (hi : s.tasks[i]? = some id) (hmark : s.mark = false) (v : VConn)
      (hv : s.vconn = some v) (hne : v.id ≠ id) (s' : Node)
      (he : s' = { s with tasks := s.tasks.eraseIdx i, mark := true }) : Eff s (.runTask i) s' none
  | notified (i : Nat) (id : Nat) (hi : s.tasks[i]? = some id) (hmark : s.mark = false)
      (hv : ∀ v, s.vconn = some v → v.id = id) (s' : Node)
      (he : s' = tell { s with tasks := s.tasks.eraseIdx i, mark := true } (.notified id)) :
      Eff s (.runTask i) s' (some id)
  | server (k : Option Nat) (hk : ∀ v id, s.vconn = some v → k = some id → v.id = id) (s' : Node)
      (he : s' = tell (remove (keep s)) .server) : Eff s (.onServer k) s' none
  | dropped (id : Nat) (s' : Node) (hst : s'.stale = s.stale) (hm : s'.mark = s.mark)
      (ht : s'.tasks = s.tasks) (hc : s'.cmds = s.cmds ++ [id]) (htd : s'.told = s.told) (hmd : s'.made = s.made)
      (hs : s'.streams = s.streams) (hw : s'.wasm = s.wasm)
      (hv : (s'.vconn = s.vconn ∧ ¬ Has s id) ∨
        ∃ v, s.vconn = some v ∧ v.id = id ∧ s'.vconn = some { v with active := false }) :
      Eff s (.dropChannel id) s' none
  | cmdLate (i : Nat) (id : Nat) (hi : s.cmds[i]? = some id) (v : VConn) (hv : s.vconn = some v) (hne : v.id ≠ id)
      (s' : Node) (he : s' = { s with cmds := s.cmds.eraseIdx i }) : Eff s (.runCmd i) s' none
  | cmdSent (i : Nat) (id : Nat) (hi : s.cmds[i]? = some id) (v : VConn) (hv : s.vconn = some v) (hne : v.id = id)
      (s' : Node) (he : s' = { s with cmds := s.cmds.eraseIdx i }) : Eff s (.runCmd i) s' (some id)
  | cmdNone (i : Nat) (id : Nat) (hi : s.cmds[i]? = some id) (hv : s.vconn = none)
      (s' : Node) (he : s' = tell { s with cmds := s.cmds.eraseIdx i } .already) : Eff s (.runCmd i) s' none
  | rekeyed (o : Nat) (v : VConn) (hv : s.vconn = some v) (s' : Node)
      (he : s' = { s with vconn := some { v with ver := v.ver + 1, old := min (max o v.old) (v.ver + 1) } }) :
      Eff s (.rekey o) s' none
  | gone (s' : Node) (he : s' = remove s) : Eff s .endSession s' none

theorem eff_step (s : Node) (a : Act) : Eff s a (step s a).1 (step s a).2 := by
  cases a with
  | create id =>
    simp only [step, create]
    split
    · rename_i v hv
      split
      · rename_i ha; exact .refused id v hv ha _ rfl
      · rename_i ha
        refine .made id (fun v' hv' => ?_) _ rfl
        rw [hv] at hv'; cases hv'; simpa using ha
    · rename_i hv
      exact .made id (fun v' hv' => by rw [hv] at hv'; cases hv') _ rfl
  | openStream l =>
    simp only [step, openStream]
    split
    · exact .quiet _ _ rfl rfl rfl rfl rfl rfl rfl (by simp) (by simp)
    · rename_i v hv
      split
      · exact .opened l v hv _ v (by simpa using hv) rfl rfl rfl rfl (Or.inr rfl) rfl rfl rfl rfl rfl rfl
      · refine .opened l v hv _ _ rfl rfl rfl rfl rfl ?_ (by simp) rfl (by simp) (by simp) (by simp) (by simp)
        cases s.wasm <;> simp
  | stopStream n =>
    simp only [step, stopStream]
    split
    · split
      · exact .quiet _ _ rfl rfl rfl rfl rfl rfl rfl (by simp) (by simp)
      · exact .quiet _ _ rfl rfl rfl rfl rfl rfl rfl (by simp) (by simp)
    · exact .quiet _ _ rfl rfl rfl rfl rfl rfl rfl (by simp) (by simp)
  | endStream n =>
    simp only [step, endStream]
    split
    · rename_i t ht
      unfold cleanup
      split
      · exact .quiet _ _ rfl rfl rfl rfl rfl rfl rfl (by simp) (by simp)
      · rename_i v hv
        split
        · rename_i hc
          refine Eff.ended (s := s) n v hv t ht ?_ _ rfl
          have hw : (dropStream s n).wasm = s.wasm := rfl
          rw [hw] at hc
          simpa using hc
        · exact .quiet _ _ rfl rfl rfl rfl rfl rfl rfl (by simp) (by simp)
    · exact .quiet _ _ rfl rfl rfl rfl rfl rfl rfl (by simp) (by simp)
  | failStream n =>
    simp only [step, failStream]
    split
    · split
      · exact .quiet _ _ rfl rfl rfl rfl rfl rfl rfl (by simp) (by simp)
      · split
        · exact .quiet _ _ rfl rfl rfl rfl rfl rfl rfl (by simp) (by simp)
        · rename_i hm
          exact .failed n (by simpa using hm) _ rfl rfl rfl rfl rfl rfl rfl
    · exact .quiet _ _ rfl rfl rfl rfl rfl rfl rfl (by simp) (by simp)
  | runTask i =>
    simp only [step, runTask]
    split
    · exact .quiet _ _ rfl rfl rfl rfl rfl rfl rfl (by simp) (by simp)
    · rename_i id hi
      split
      · rename_i hm; exact .skipped i id hi hm _ rfl
      · rename_i hm
        have hm : s.mark = false := by simpa using hm
        split
        · rename_i v hv
          split
          · rename_i hne; exact .late i id hi hm v hv hne _ rfl
          · rename_i hne
            refine .notified i id hi hm (fun v' hv' => ?_) _ rfl
            rw [hv] at hv'; cases hv'; simpa using hne
        · rename_i hv
          exact .notified i id hi hm (fun v' hv' => by rw [hv] at hv'; cases hv') _ rfl
  | onServer k =>
    simp only [step, onServer]
    split
    · rename_i id v hv
      split
      · exact .quiet _ _ rfl rfl rfl rfl rfl rfl rfl (by simp) (by simp)
      · rename_i hne
        refine .server _ (fun v' id' hv' hk => ?_) _ rfl
        rw [hv] at hv'; cases hv'; cases hk; simpa using hne
    · rename_i hnot
      refine .server _ (fun v id hv hk => ?_) _ rfl
      exact absurd hv (hnot id v hk)
  | dropChannel id =>
    simp only [step, dropChannel]
    split
    · rename_i v hv
      split
      · rename_i he
        exact .dropped id _ rfl rfl rfl rfl rfl rfl rfl rfl (Or.inr ⟨v, hv, he, rfl⟩)
      · rename_i he
        refine .dropped id _ rfl rfl rfl rfl rfl rfl rfl rfl (Or.inl ⟨rfl, ?_⟩)
        rintro ⟨v', hv', he'⟩
        rw [hv] at hv'; cases hv'; exact he he'
    · rename_i hv
      refine .dropped id _ rfl rfl rfl rfl rfl rfl rfl rfl (Or.inl ⟨rfl, ?_⟩)
      rintro ⟨v', hv', _⟩
      rw [hv] at hv'; cases hv'
  | runCmd i =>
    simp only [step, runCmd]
    split
    · exact .quiet _ _ rfl rfl rfl rfl rfl rfl rfl (by simp) (by simp)
    · rename_i id hi
      split
      · rename_i v hv
        split
        · rename_i hne; exact .cmdLate i id hi v hv hne _ rfl
        · rename_i hne; exact .cmdSent i id hi v hv (by simpa using hne) _ rfl
      · rename_i hv; exact .cmdNone i id hi hv _ rfl
  | rekey o =>
    simp only [step, rekey]
    split
    · rename_i v hv; exact .rekeyed o v hv _ rfl
    · exact .quiet _ _ rfl rfl rfl rfl rfl rfl rfl (by simp) (by simp)
  | endSession => exact .gone _ rfl

end Verif.PeerDrop

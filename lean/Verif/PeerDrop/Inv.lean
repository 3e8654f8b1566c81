import Verif.PeerDrop.Lemmas
/-
Invariants of the runs of a client.
-/
namespace Verif.PeerDrop

theorem step_wasm (s : Node) (a : Act) : (step s a).1.wasm = s.wasm := by
  cases a <;> simp only [step, create, openStream, stopStream, endStream, failStream, runTask, onServer, dropChannel,
    runCmd, rekey, endSession, cleanup] <;> repeat' split
  all_goals simp [dropStream, tell]

/-- Where the ids of the streams come from. -/
theorem step_ids (s : Node) (a : Act) (i : Nat) (h : i ∈ (step s a).1.streams.map (·.id)) :
    i ∈ s.streams.map (·.id) ∨ ((∃ l, a = .openStream l) ∧ Has s i) := by
  have hdrop : ∀ n, i ∈ (dropStream s n).streams.map (·.id) → i ∈ s.streams.map (·.id) := by
    intro n h
    obtain ⟨t, ht, rfl⟩ := List.mem_map.mp h
    exact List.mem_map.mpr ⟨t, (List.mem_filter.mp ht).1, rfl⟩
  have hkeep : ∀ s : Node, (remove (keep s)).streams.map (·.id) = s.streams.map (·.id) := by
    intro s; rw [remove_ids, keep_streams]
  cases a with
  | create id =>
    simp only [step, create] at h
    have put : i ∈ (remove s).streams.map (·.id) → i ∈ s.streams.map (·.id) := by rw [remove_ids]; exact fun h => h
    split at h
    · split at h
      · exact Or.inl h
      · exact Or.inl (put h)
    · exact Or.inl (put h)
  | openStream l =>
    simp only [step, openStream] at h
    split at h
    · exact Or.inl h
    · rename_i v hv
      split at h
      · simp only [List.map_append, List.mem_append, List.map_cons, List.map_nil, List.mem_singleton] at h
        rcases h with h | h
        · exact Or.inl h
        · exact Or.inr ⟨⟨l, rfl⟩, v, hv, h.symm⟩
      · simp only [List.map_append, List.mem_append, List.map_cons, List.map_nil, List.mem_singleton,
          stopOf_ids] at h
        rcases h with h | h
        · exact Or.inl h
        · exact Or.inr ⟨⟨l, rfl⟩, v, hv, h.symm⟩
  | stopStream n =>
    simp only [step, stopStream] at h
    split at h
    · split at h
      · exact Or.inl (hdrop n h)
      · exact Or.inl h
    · exact Or.inl h
  | endStream n =>
    simp only [step, endStream] at h
    split at h
    · unfold cleanup at h
      split at h
      · exact Or.inl (hdrop n h)
      · split at h
        · rw [hkeep] at h; exact Or.inl (hdrop n h)
        · exact Or.inl (hdrop n h)
    · exact Or.inl h
  | failStream n =>
    simp only [step, failStream] at h
    split at h
    · split at h
      · exact Or.inl h
      · have key : ∀ ss : List Strm,
            (ss.map fun u => if u.n = n then { u with failed := true } else u).map (·.id) = ss.map (·.id) := by
          intro ss
          rw [List.map_map]
          apply List.map_congr_left
          intro t _
          simp only [Function.comp]
          split <;> rfl
        split at h
        · rw [key] at h; exact Or.inl h
        · simp only [tell_streams] at h; rw [key] at h; exact Or.inl h
    · exact Or.inl h
  | runTask k =>
    simp only [step, runTask] at h
    repeat' split at h
    all_goals exact Or.inl h
  | onServer k =>
    simp only [step, onServer] at h
    have go : i ∈ (tell (remove (keep s)) .server).streams.map (·.id) → i ∈ s.streams.map (·.id) := by
      rw [tell_streams, hkeep]; exact id
    split at h
    · split at h
      · exact Or.inl h
      · exact Or.inl (go h)
    · exact Or.inl (go h)
  | dropChannel id =>
    simp only [step, dropChannel] at h
    repeat' split at h
    all_goals exact Or.inl h
  | runCmd k =>
    simp only [step, runCmd] at h
    repeat' split at h
    all_goals exact Or.inl h
  | rekey o =>
    simp only [step, rekey] at h
    repeat' split at h
    all_goals exact Or.inl h
  | endSession =>
    rw [show (step s .endSession).1 = remove s from rfl, remove_ids] at h
    exact Or.inl h

theorem step_made (s : Node) (a : Act) :
    (step s a).1.made = s.made ∨ ∃ id, a = .create id ∧ (step s a).1.made = id :: s.made := by
  have e := eff_step s a
  generalize (step s a).1 = s' at *
  generalize (step s a).2 = o at *
  cases e with
  | made id hin _ he => subst he; exact Or.inr ⟨_, rfl, rfl⟩
  | quiet _ _ hv hst hm ht hc htd hmd ha hb => exact Or.inl hmd
  | opened l v hv _ v' hv' hid hver hold hact hnot hst hm ht hc htd hmd => exact Or.inl hmd
  | failed n hmark _ hv hst hm ht hc htd hmd => exact Or.inl hmd
  | dropped id _ hst hm ht hc htd hmd hs hw hv => exact Or.inl hmd
  | _ => subst_vars; left; simp [dropStream]

/-- All ids of connections and streams were made. -/
def Known (s : Node) : Prop :=
  (∀ v, s.vconn = some v → v.id ∈ s.made) ∧ (∀ i ∈ s.streams.map (·.id), i ∈ s.made) ∧ (∀ i ∈ s.tasks, i ∈ s.made)

theorem remove_tasks_mem {s : Node} {i : Nat} (h : i ∈ (remove s).tasks) : i ∈ s.tasks ∨ Has s i := by
  cases hv : s.vconn with
  | none => rw [remove_tasks_none hv] at h; exact Or.inl h
  | some v =>
    rw [remove_tasks_some hv] at h
    split at h
    · rcases List.mem_append.mp h with h | h
      · exact Or.inl h
      · rw [List.mem_singleton] at h; exact Or.inr ⟨v, hv, h.symm⟩
    · exact Or.inl h

theorem has_keep (s : Node) (i : Nat) : Has (keep s) i ↔ Has s i := by
  unfold Has; rw [keep_vconn]

theorem known_step (s : Node) (a : Act) (h : Known s) : Known (step s a).1 := by
  obtain ⟨h1, h2, h3⟩ := h
  have hhas : ∀ i, Has s i → i ∈ s.made := fun i ⟨v, hv, e⟩ => e ▸ h1 v hv
  have mono : ∀ i, i ∈ s.made → i ∈ (step s a).1.made := by
    intro i hi
    rcases step_made s a with e | ⟨id, _, e⟩
    · rw [e]; exact hi
    · rw [e]; exact List.mem_cons_of_mem _ hi
  have hs : ∀ i ∈ (step s a).1.streams.map (·.id), i ∈ (step s a).1.made := by
    intro i hi
    rcases step_ids s a i hi with h | ⟨_, h⟩
    · exact mono i (h2 i h)
    · exact mono i (hhas i h)
  refine ⟨?_, hs, ?_⟩
  all_goals
    clear hs
    have e := eff_step s a
    generalize (step s a).1 = s' at *
    generalize (step s a).2 = o at *
  · cases e with
    | quiet _ _ hv hst hm ht hc htd hmd ha hb => intro v h; exact mono _ (h1 v (hv ▸ h))
    | refused id v hv hact _ he => subst he; exact h1
    | made id hin _ he => subst he; intro v h; cases h; exact List.mem_cons_self
    | opened l v hv _ v' hv' hid hver hold hact hnot hst hm ht hc htd hmd =>
      intro w hw
      rw [hv'] at hw; cases hw
      rw [hid]; exact mono _ (h1 v hv)
    | ended n v hv t hf hid _ he => subst he; intro v h; simp at h
    | failed n hmark _ hv hst hm ht hc htd hmd => intro v h; exact mono _ (h1 v (hv ▸ h))
    | skipped j id hj hmark _ he => subst he; exact h1
    | late j id hj hmark v hv hne _ he => subst he; exact h1
    | notified j id hj hmark hv _ he => subst he; exact h1
    | server k hk _ he => subst he; intro v h; simp at h
    | dropped id _ hst hm ht hc htd hmd hs hw hv =>
      intro w hw
      rcases hv with ⟨hv, _⟩ | ⟨v, hv, _, hv'⟩
      · exact mono _ (h1 w (hv ▸ hw))
      · rw [hv'] at hw; cases hw; exact mono _ (h1 v hv)
    | cmdLate j id hj v hv hne _ he => subst he; exact h1
    | cmdSent j id hj v hv hne _ he => subst he; exact h1
    | cmdNone j id hj hv _ he => subst he; exact h1
    | rekeyed o v hv _ he => subst he; intro w hw; cases hw; exact h1 v hv
    | gone _ he => subst he; intro v h; simp at h
  · intro i hi
    apply mono
    cases e with
    | quiet _ _ hv hst hm ht hc htd hmd ha hb => exact h3 i (ht ▸ hi)
    | refused id v hv hact _ he => subst he; exact h3 i hi
    | made id hin _ he => 
      subst he
      rcases remove_tasks_mem hi with h | h
      · exact h3 i h
      · exact hhas i h
    | opened l v hv _ v' hv' hid hver hold hact hnot hst hm ht hc htd hmd => exact h3 i (ht ▸ hi)
    | ended n v hv t hf hid _ he =>
      subst he
      rcases remove_tasks_mem hi with h | h
      · rw [keep_tasks] at h; exact h3 i h
      · rw [has_keep] at h; exact hhas i h
    | failed n hmark _ hv hst hm ht hc htd hmd => exact h3 i (ht ▸ hi)
    | skipped j id hj hmark _ he => subst he; exact h3 i (List.mem_of_mem_eraseIdx hi)
    | late j id hj hmark v hv hne _ he => subst he; exact h3 i (List.mem_of_mem_eraseIdx hi)
    | notified j id hj hmark hv _ he => subst he; exact h3 i (List.mem_of_mem_eraseIdx hi)
    | server k hk _ he =>
      subst he
      rw [tell_tasks] at hi
      rcases remove_tasks_mem hi with h | h
      · rw [keep_tasks] at h; exact h3 i h
      · rw [has_keep] at h; exact hhas i h
    | dropped id _ hst hm ht hc htd hmd hs hw hv => exact h3 i (ht ▸ hi)
    | cmdLate j id hj v hv hne _ he => subst he; exact h3 i hi
    | cmdSent j id hj v hv hne _ he => subst he; exact h3 i hi
    | cmdNone j id hj hv _ he => subst he; exact h3 i hi
    | rekeyed o v hv _ he => subst he; exact h3 i hi
    | gone _ he =>
      subst he
      rcases remove_tasks_mem hi with h | h
      · exact h3 i h
      · exact hhas i h

theorem known_run (me peer : Nat) (wasm : Bool) (as : List Act) : Known (run (fresh me peer wasm) as) :=
  run_inv Known (fun _ => True) (fun s a _ h => known_step s a h) _ as (fun _ _ => trivial)
    ⟨(by intro v h; cases h), (by intro i h; cases h), (by intro i h; cases h)⟩

/-- The ratchets at hand are those of the newest connection. -/
def Newest (s : Node) : Prop :=
  (∀ v, s.vconn = some v → s.made.head? = some v.id ∧ v.old ≤ v.ver) ∧
  (∀ r, s.stale = some r → s.made.head? = some r.1)

theorem keep_stale_mem {s : Node} {r : Nat × Nat} (h : (keep s).stale = some r) :
    s.stale = some r ∨ ∃ v, s.vconn = some v ∧ r = (v.id, v.ver) := by
  unfold keep at h
  split at h
  · exact Or.inl h
  · rename_i v hv; cases h; exact Or.inr ⟨v, hv, rfl⟩

theorem newest_step (s : Node) (a : Act) (h : Newest s) : Newest (step s a).1 := by
  obtain ⟨h1, h2⟩ := h
  have hkeep : ∀ u : Node, u.vconn = s.vconn → u.stale = s.stale → ∀ r, (keep u).stale = some r →
      s.made.head? = some r.1 := by
    intro u hu1 hu2 r hr
    rcases keep_stale_mem hr with h | ⟨v, hv, rfl⟩
    · exact h2 r (hu2 ▸ h)
    · exact (h1 v (hu1 ▸ hv)).1
  have e := eff_step s a
  generalize (step s a).1 = s' at *
  generalize (step s a).2 = o at *
  cases e with
  | quiet _ _ hv hst hm ht hc htd hmd ha hb => exact ⟨fun v h => hmd ▸ h1 v (hv ▸ h), fun r h => hmd ▸ h2 r (hst ▸ h)⟩
  | refused id v hv hact _ he => subst he; exact ⟨h1, h2⟩
  | made id hin _ he =>
    subst he
    refine ⟨fun v h => ?_, fun r h => ?_⟩
    · cases h; exact ⟨rfl, Nat.le_refl _⟩
    · cases h
  | opened l v hv _ v' hv' hid hver hold hact hnot hst hm ht hc htd hmd =>
    refine ⟨fun w hw => ?_, fun r h => hmd ▸ h2 r (hst ▸ h)⟩
    rw [hv'] at hw; cases hw
    rw [hid, hver, hold, hmd]; exact h1 v hv
  | ended n v hv t hf hid _ he =>
    subst he
    refine ⟨fun v h => by simp at h, fun r h => ?_⟩
    rw [remove_stale] at h
    rw [remove_made, keep_made]
    exact hkeep (dropStream s n) rfl rfl r h
  | failed n hmark _ hv hst hm ht hc htd hmd => exact ⟨fun v h => hmd ▸ h1 v (hv ▸ h), fun r h => hmd ▸ h2 r (hst ▸ h)⟩
  | skipped j id hj hmark _ he => subst he; exact ⟨h1, h2⟩
  | late j id hj hmark v hv hne _ he => subst he; exact ⟨h1, h2⟩
  | notified j id hj hmark hv _ he => subst he; exact ⟨h1, h2⟩
  | server k hk _ he =>
    subst he
    refine ⟨fun v h => by simp at h, fun r h => ?_⟩
    rw [tell_stale, remove_stale] at h
    rw [tell_made, remove_made, keep_made]
    exact hkeep _ rfl rfl r h
  | dropped id _ hst hm ht hc htd hmd hs hw hv =>
    refine ⟨fun w hw => ?_, fun r h => hmd ▸ h2 r (hst ▸ h)⟩
    rw [hmd]
    rcases hv with ⟨hv, _⟩ | ⟨v, hv, _, hv'⟩
    · exact h1 w (hv ▸ hw)
    · rw [hv'] at hw; cases hw; exact h1 v hv
  | cmdLate j id hj v hv hne _ he => subst he; exact ⟨h1, h2⟩
  | cmdSent j id hj v hv hne _ he => subst he; exact ⟨h1, h2⟩
  | cmdNone j id hj hv _ he => subst he; exact ⟨h1, h2⟩
  | rekeyed o v hv _ he =>
    subst he
    refine ⟨fun w hw => ?_, h2⟩
    cases hw
    exact ⟨(h1 v hv).1, Nat.min_le_right _ _⟩
  | gone _ he =>
    subst he
    exact ⟨fun v h => by simp at h, fun r h => by rw [remove_stale] at h; rw [remove_made]; exact h2 r h⟩

theorem newest_run (me peer : Nat) (wasm : Bool) (as : List Act) : Newest (run (fresh me peer wasm) as) :=
  run_inv Newest (fun _ => True) (fun s a _ h => newest_step s a h) _ as (fun _ _ => trivial)
    ⟨(by intro v h; cases h), (by intro r h; cases h)⟩

end Verif.PeerDrop

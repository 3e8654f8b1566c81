import Verif.FileStore.Map
import Verif.FileStore.NetModel
/-
What a step does to the tasks of a session, for C90, C92 and C94.
-/
namespace Verif.FileStore

variable {M : Type}

/-! ### Invariants over the tasks of a session -/

/-- All tasks satisfy `T`, and all parties whose data waits in the groups of an object satisfy `G`. -/
structure SInv (T : Nat → Task M → Prop) (G : Nat → Who → Prop) (s : Session M) : Prop where
  tasks : ∀ i t, s.tasks[i]? = some t → T i t
  files : ∀ oid f, s.files oid = some f → ∃ t, s.tasks[f.task]? = some t ∧ t.oid = oid
  groups : ∀ k w l, s.groups k = some (w, l) → ∀ x ∈ l, G k.2.2 x.1

/-- `T` survives what happens to a task. -/
structure Stable (T : Nat → Task M → Prop) (G : Nat → Who → Prop) : Prop where
  data : ∀ i t l, T i t → (∀ x ∈ l, G t.oid x.1) → T i { t with data := t.data ++ l }
  closed : ∀ i t, T i t → T i { t with closed := true }
  stored : ∀ i t, T i t → T i { t with stored := true }

theorem sinv_modify {T : Nat → Task M → Prop} {G : Nat → Who → Prop} {s : Session M} (I : SInv T G s) (i : Nat)
    (f : Task M → Task M) (ho : ∀ t, (f t).oid = t.oid) (hf : ∀ t, s.tasks[i]? = some t → T i t → T i (f t)) :
    SInv T G (s.modify i f) where
  tasks := fun j t h => by
    simp only [Session.modify, List.getElem?_modify] at h
    split at h
    · rename_i hij
      subst hij
      cases hx : s.tasks[i]? with
      | none => rw [hx] at h; cases h
      | some t' =>
        rw [hx] at h
        simp only [Option.map_eq_map, Option.map_some, Option.some.injEq] at h
        subst h
        exact hf t' hx (I.tasks _ _ hx)
    · simp only [Option.map_eq_map, Option.map_id_fun', id_eq] at h
      exact I.tasks _ _ h
  files := fun oid g h => by
    obtain ⟨t, ht, hto⟩ := I.files oid g h
    simp only [Session.modify, List.getElem?_modify, ht, Option.map_eq_map, Option.map_some]
    split
    · exact ⟨_, rfl, (ho t).trans hto⟩
    · exact ⟨_, rfl, hto⟩
  groups := I.groups

theorem sinv_put_files {T : Nat → Task M → Prop} {G : Nat → Who → Prop} {s : Session M} (I : SInv T G s) (oid : Nat) :
    SInv T G { s with files := put s.files oid none } where
  tasks := I.tasks
  files := fun o f h => by
    simp only [put] at h
    split at h
    · cases h
    · exact I.files o f h
  groups := I.groups

theorem sinv_put_groups {T : Nat → Task M → Prop} {G : Nat → Who → Prop} {s : Session M} (I : SInv T G s)
    (k : Nat × Nat × Nat) (v : Option (Nat × List (Who × Bytes))) (hv : ∀ w l, v = some (w, l) → ∀ x ∈ l, G k.2.2 x.1) :
    SInv T G { s with groups := put s.groups k v } where
  tasks := I.tasks
  files := I.files
  groups := fun k' w l h => by
    simp only [put] at h
    split at h
    · rename_i he; subst he; exact hv w l h
    · exact I.groups k' w l h

theorem sinv_settle {T : Nat → Task M → Prop} {G : Nat → Who → Prop} (S : Stable T G) (e : Env M) (fs : FS)
    {s : Session M} (I : SInv T G s) (i : Nat) : SInv T G (settle e fs s i).2 := by
  unfold settle
  cases hx : s.tasks[i]? with
  | none => exact I
  | some t =>
    simp only
    split
    · have := sinv_modify I i (fun t => { t with stored := true }) (fun _ => rfl) (fun t _ h => S.stored i t h)
      have he : (s.modify i fun t => { t with stored := true }) =
          { s with tasks := s.tasks.set i { t with stored := true } } := by
        simp only [Session.modify]
        congr 1
        apply List.ext_getElem?
        intro j
        rw [List.getElem?_modify, List.getElem?_set]
        by_cases hij : i = j
        · subst hij
          have hlt : i < s.tasks.length := (List.getElem?_eq_some_iff.mp hx).1
          simp only [if_true, hx, hlt]; rfl
        · simp [hij]
      rwa [he] at this
    · exact I

/-- What a packet does to the invariant. -/
theorem sinv_handle {T : Nat → Task M → Prop} {G : Nat → Who → Prop} (S : Stable T G) (e : Env M) (fs : FS)
    {s : Session M} (I : SInv T G s) (p : Packet M)
    (hnew : ∀ oid cid kind m total level ticket, p.body = .header oid cid kind m total level ticket →
      T s.tasks.length (Task.new p.by_ oid cid kind m level ticket))
    (hpay : ∀ gid oid data, p.body = .payload gid oid data → G oid p.by_) :
    SInv T G (handle e fs s p).2.1 := by
  unfold handle
  cases hb : p.body with
  | pull path del =>
    simp only
    split <;> exact I
  | delete path => exact I
  | header oid cid kind m total level ticket =>
    simp only
    cases hf : s.files oid with
    | some f => exact I
    | none =>
      simp only
      refine ⟨fun i t h => ?_, fun o f h => ?_, I.groups⟩
      · simp only [List.getElem?_append] at h
        split at h
        · exact I.tasks i t h
        · rename_i hlt
          have hi : i - s.tasks.length = 0 := by
            rcases Nat.eq_zero_or_pos (i - s.tasks.length) with h0 | h0
            · exact h0
            · rw [List.getElem?_eq_none (by simpa using Nat.succ_le_of_lt h0)] at h; cases h
          rw [hi] at h
          simp only [List.length_singleton, Nat.lt_add_one, getElem?_pos, List.getElem_cons_zero, Option.some.injEq] at h
          have : i = s.tasks.length := by omega
          rw [← h, this]
          exact hnew oid cid kind m total level ticket hb
      · simp only [put] at h
        split at h
        · rename_i he
          subst he
          simp only [Option.some.injEq] at h
          subst h
          exact ⟨Task.new p.by_ o cid kind m level ticket, by simp, rfl⟩
        · obtain ⟨t, ht, hto⟩ := I.files o f h
          have hlt := (List.getElem?_eq_some_iff.mp ht).1
          exact ⟨t, by simp only [List.getElem?_append, hlt, if_true]; exact ht, hto⟩
  | ghdr gid oid waves =>
    simp only
    cases hg : s.groups (p.session, gid, oid) with
    | some v => exact I
    | none =>
      simp only
      split
      · exact sinv_put_groups I _ _ (fun w l h => by
          simp only [Option.some.injEq, Prod.mk.injEq] at h
          rw [← h.2]; intro x hx; cases hx)
      · exact I
  | payload gid oid data =>
    simp only
    cases hg : s.groups (p.session, gid, oid) with
    | none => exact I
    | some v =>
      obtain ⟨waves, got⟩ := v
      have hgot : ∀ x ∈ got ++ [(p.by_, data)], G oid x.1 := fun x hx => by
        rcases List.mem_append.mp hx with hx | hx
        · exact I.groups _ _ _ hg x hx
        · rw [List.mem_singleton.mp hx]; exact hpay gid oid data hb
      simp only
      split
      · exact sinv_put_groups I _ _ (fun w l h => by
          simp only [Option.some.injEq, Prod.mk.injEq] at h
          rw [← h.2]; exact hgot)
      · have I1 := sinv_put_groups I (p.session, gid, oid) none (fun w l h => by cases h)
        cases hf : s.files oid with
        | none => exact I1
        | some f =>
          simp only
          obtain ⟨t0, ht0, hto⟩ := I.files oid f hf
          have I2 := sinv_modify I1 f.task (fun t => { t with data := t.data ++ (got ++ [(p.by_, data)]) }) (fun _ => rfl)
            (fun t ht h => by
              have : t = t0 := by
                simp only at ht
                rw [ht0] at ht; exact (Option.some.inj ht).symm
              subst this
              exact S.data _ _ _ h (by rw [hto]; exact hgot))
          split
          · refine sinv_settle S e fs (sinv_modify (sinv_put_files I2 oid) f.task (fun t => { t with closed := true })
              (fun _ => rfl) (fun t _ h => S.closed _ t h)) f.task
          · exact I2

/-- The event is an accepted packet of a party. -/
def recvBy (n : Host M) (ev : Event M) (sid : Nat) (p : Packet M) : Prop :=
  ev = .recv sid p ∧ accepts sid (n.sess sid) p = true

/-- Invariants of all sessions. -/
def HInv (T : Nat → Nat → Task M → Prop) (G : Nat → Nat → Who → Prop) (n : Host M) : Prop :=
  ∀ sid, SInv (T sid) (G sid) (n.sess sid)

theorem hinv_set {T : Nat → Nat → Task M → Prop} {G : Nat → Nat → Who → Prop} {n : Host M} (I : HInv T G n) (sid : Nat)
    (fs : FS) {s : Session M} (h : SInv (T sid) (G sid) s) : HInv T G (n.setS sid fs s) := fun x => by
  simp only [Host.setS]
  split
  · rename_i hx; subst hx; exact h
  · exact I x

theorem hinv_step {T : Nat → Nat → Task M → Prop} {G : Nat → Nat → Who → Prop} (S : ∀ sid, Stable (T sid) (G sid))
    (e : Env M) {n : Host M} (I : HInv T G n) (ev : Event M)
    (hnew : ∀ sid p, recvBy n ev sid p → ∀ oid cid kind m total level ticket,
      p.body = .header oid cid kind m total level ticket →
      T sid (n.sess sid).tasks.length (Task.new p.by_ oid cid kind m level ticket))
    (hpay : ∀ sid p, recvBy n ev sid p → ∀ gid oid data, p.body = .payload gid oid data → G sid oid p.by_)
    (hans : ∀ sid i ok t, ev = .answer sid i ok → T sid i t → T sid i { t with answer := some ok }) :
    HInv T G (step e n ev).1 := by
  cases ev with
  | recv sid p =>
    simp only [step]
    split
    · rename_i ha
      exact hinv_set I sid _ (sinv_handle (S sid) e n.fs (I sid) p (hnew sid p ⟨rfl, ha⟩) (hpay sid p ⟨rfl, ha⟩))
    · exact I
  | answer sid i ok =>
    simp only [step]
    cases ht : (n.sess sid).tasks[i]? with
    | none => exact I
    | some t =>
      simp only
      split
      · have I1 := sinv_modify (I sid) i (fun t => { t with answer := some ok }) (fun _ => rfl)
          (fun t _ h => hans sid i ok t rfl h)
        cases ok with
        | true => exact hinv_set I sid _ (sinv_settle (S sid) e n.fs I1 i)
        | false => exact hinv_set I sid _ (sinv_put_files I1 t.oid)
      · exact I
  | request sid ticket => exact I
  | expire sid oid =>
    simp only [step]
    cases hf : (n.sess sid).files oid with
    | none => exact I
    | some f =>
      simp only
      exact hinv_set I sid _ (sinv_settle (S sid) e n.fs (sinv_modify (sinv_put_files (I sid) oid) f.task
        (fun t => { t with closed := true }) (fun _ => rfl) (fun t _ h => (S sid).closed _ t h)) f.task)

theorem hinv_init (T : Nat → Nat → Task M → Prop) (G : Nat → Nat → Who → Prop) (fs : FS) (peers : Nat → Nat → Bool) :
    HInv T G (Host.init (M := M) fs peers) := fun _ =>
  ⟨(fun i t h => by simp [Host.init, Session.init] at h), (fun o f h => by cases h), (fun k w l h => by cases h)⟩

end Verif.FileStore

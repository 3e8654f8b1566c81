import Verif.FileStore.Net
/-
C90: a client reads, writes and deletes their own files only. C92: a file is written only if the user wants it.
C94: the contents of a file come from the party that offered it.
-/
namespace Verif.FileStore

variable {M : Type}

/-! ### C94 -/

/-- The object a packet of a file transfer belongs to. -/
def Body.object : Body M → Option Nat
  | .header oid .. => some oid
  | .payload _ oid _ => some oid
  | _ => none

/-- The events of a trace that are accepted packets, with the session. -/
def received (e : Env M) : Host M → List (Event M) → List (Nat × Packet M)
  | _, [] => []
  | n, ev :: r =>
    (match ev with
      | .recv sid p => if accepts sid (n.sess sid) p then [(sid, p)] else []
      | _ => []) ++ received e (step e n ev).1 r

theorem mem_received {e : Env M} {n : Host M} {ev : Event M} {r : List (Event M)} {sid : Nat} {p : Packet M}
    (h : recvBy n ev sid p) : (sid, p) ∈ received e n (ev :: r) := by
  obtain ⟨rfl, ha⟩ := h
  simp [received, ha]

/-- An invariant of all sessions for a trace, from conditions on its packets and answers. -/
theorem hinv_run {T : Nat → Nat → Task M → Prop} {G : Nat → Nat → Who → Prop} (S : ∀ sid, Stable (T sid) (G sid))
    (e : Env M) (evs : List (Event M)) {n : Host M} (I : HInv T G n)
    (hnew : ∀ sid p, (sid, p) ∈ received e n evs → ∀ i oid cid kind m total level ticket,
      p.body = .header oid cid kind m total level ticket → T sid i (Task.new p.by_ oid cid kind m level ticket))
    (hpay : ∀ sid p, (sid, p) ∈ received e n evs → ∀ gid oid data, p.body = .payload gid oid data → G sid oid p.by_)
    (hans : ∀ sid i ok t, .answer sid i ok ∈ evs → T sid i t → T sid i { t with answer := some ok }) :
    HInv T G (run e n evs) := by
  induction evs generalizing n with
  | nil => exact I
  | cons ev r ih =>
    refine ih (hinv_step S e I ev (fun sid p h => hnew sid p (mem_received h) _) (fun sid p h => hpay sid p (mem_received h))
      (fun sid i ok t h => hans sid i ok t (h ▸ List.mem_cons_self ..))) ?_ ?_ ?_
    · exact fun sid p h => hnew sid p (List.mem_append_right _ h)
    · exact fun sid p h => hpay sid p (List.mem_append_right _ h)
    · exact fun sid i ok t h => hans sid i ok t (List.mem_cons_of_mem _ h)

/-- **C94** (partial: in a session, the accepted packets with the same object id come from the same party). Everything
in a file comes from the party that offered the file. -/
theorem C94_data_of_offerer_partial (e : Env M) (fs : FS) (peers : Nat → Nat → Bool) (evs : List (Event M))
    (hx : ∀ sid p p', (sid, p) ∈ received e (Host.init fs peers) evs → (sid, p') ∈ received e (Host.init fs peers) evs →
      ∀ o, p.body.object = some o → p'.body.object = some o → p.by_ = p'.by_)
    (sid i : Nat) (t : Task M) (ht : ((run e (Host.init fs peers) evs).sess sid).tasks[i]? = some t) :
    ∀ x ∈ t.data, x.1 = t.by_ := by
  -- the parties of an object
  let G : Nat → Nat → Who → Prop := fun sid o w =>
    ∃ p, (sid, p) ∈ received e (Host.init fs peers) evs ∧ p.body.object = some o ∧ p.by_ = w
  let T : Nat → Nat → Task M → Prop := fun sid _ t => G sid t.oid t.by_ ∧ ∀ x ∈ t.data, x.1 = t.by_
  have I : HInv T G (run e (Host.init fs peers) evs) := by
    have S : ∀ sid, Stable (T sid) (G sid) := fun sid => by
      refine ⟨fun i t l h hl => ⟨h.1, fun x hx' => ?_⟩, fun i t h => h, fun i t h => h⟩
      rcases List.mem_append.mp hx' with hx' | hx'
      · exact h.2 x hx'
      · obtain ⟨p, hp, ho, hw⟩ := hl x hx'
        obtain ⟨p', hp', ho', hw'⟩ := h.1
        rw [← hw, ← hw']; exact hx sid p p' hp hp' _ ho ho'
    refine hinv_run S e evs (hinv_init T G fs peers) ?_ ?_ (fun _ _ _ _ _ h => h)
    · intro sid p hp i oid cid kind m total level ticket hb
      exact ⟨⟨p, hp, by simp [hb, Body.object, Task.new], rfl⟩, fun x hx' => by cases hx'⟩
    · intro sid p hp gid oid data hb
      exact ⟨p, hp, by simp [hb, Body.object], rfl⟩
  exact ((I sid).tasks i t ht).2

/-! ### C92 -/

/-- What `settle` does to the file system. -/
theorem settle_writes {e : Env M} {fs : FS} {s : Session M} {i : Nat} (h : (settle e fs s i).1 ≠ fs) :
    ∃ t : Task M, s.tasks[i]? = some t ∧ t.answer = some true ∧
      (settle e fs s i).1 = (store e fs t.cid t.kind t.meta_ (t.data.map Prod.snd).flatten).1 ∧
      (settle e fs s i).2.tasks[i]? = some { t with stored := true } := by
  unfold settle at h ⊢
  cases hx : s.tasks[i]? with
  | none => rw [hx] at h; exact absurd rfl h
  | some t =>
    rw [hx] at h
    simp only at h ⊢
    split
    · rename_i hc
      refine ⟨t, rfl, hc.1, rfl, ?_⟩
      have hlt := (List.getElem?_eq_some_iff.mp hx).1
      simp [hlt]
    · rename_i hc
      rw [if_neg hc] at h
      exact absurd rfl h

/-- A request for a file of the remote file system. -/
def Body.isRequest : Body M → Bool
  | .pull .. => true
  | .delete .. => true
  | _ => false

/-- Every change of the file system that is not a request of a client is the file of an accepted task. -/
theorem step_writes {e : Env M} {n : Host M} {ev : Event M} (h : (step e n ev).1.fs ≠ n.fs)
    (hr : ∀ sid p, ev = .recv sid p → p.body.isRequest = false) :
    ∃ (sid i : Nat) (t : Task M), ((step e n ev).1.sess sid).tasks[i]? = some t ∧ t.stored = true ∧ t.answer = some true ∧
      (step e n ev).1.fs = (store e n.fs t.cid t.kind t.meta_ (t.data.map Prod.snd).flatten).1 := by
  have key : ∀ (sid : Nat) (s : Session M) (i : Nat), (settle e n.fs s i).1 ≠ n.fs →
      ∃ t : Task M, ((n.setS sid (settle e n.fs s i).1 (settle e n.fs s i).2).sess sid).tasks[i]? = some t ∧ t.stored = true ∧
      t.answer = some true ∧ (settle e n.fs s i).1 = (store e n.fs t.cid t.kind t.meta_ (t.data.map Prod.snd).flatten).1 :=
    fun sid s i hs => by
      obtain ⟨t, _, ha, hfs, ht⟩ := settle_writes hs
      exact ⟨{ t with stored := true }, by simp only [Host.setS, if_true]; exact ht, rfl, ha, hfs⟩
  cases ev with
  | recv sid p =>
    have hq := hr sid p rfl
    simp only [step] at h ⊢
    by_cases ha : accepts sid (n.sess sid) p = true
    · rw [if_pos ha] at h ⊢
      refine ⟨sid, ?_⟩
      unfold handle at h ⊢
      cases hb : p.body with
      | pull path del => rw [hb] at hq; cases hq
      | delete path => rw [hb] at hq; cases hq
      | header oid cid kind m total level ticket =>
        rw [hb] at h
        simp only at h
        split at h <;> exact absurd rfl h
      | ghdr gid oid waves =>
        rw [hb] at h
        simp only at h
        split at h
        · exact absurd rfl h
        · split at h <;> exact absurd rfl h
      | payload gid oid data =>
        rw [hb] at h
        simp only at h ⊢
        cases hg : (n.sess sid).groups (p.session, gid, oid) with
        | none => rw [hg] at h; exact absurd rfl h
        | some v =>
          rw [hg] at h
          simp only at h ⊢
          by_cases hl : (v.2 ++ [(p.by_, data)]).length < v.1
          · rw [if_pos hl] at h; exact absurd rfl h
          · rw [if_neg hl] at h ⊢
            cases hf : (n.sess sid).files oid with
            | none => rw [hf] at h; exact absurd rfl h
            | some f =>
              rw [hf] at h
              simp only at h ⊢
              by_cases hl2 : gid ≥ f.total - 1
              · rw [if_pos hl2] at h ⊢
                obtain ⟨t, ht⟩ := key sid _ f.task h
                exact ⟨f.task, t, ht⟩
              · rw [if_neg hl2] at h; exact absurd rfl h
    · rw [if_neg ha] at h; exact absurd rfl h
  | answer sid i ok =>
    simp only [step] at h ⊢
    cases ht : (n.sess sid).tasks[i]? with
    | none => rw [ht] at h; exact absurd rfl h
    | some t =>
      rw [ht] at h
      simp only at h ⊢
      by_cases hn : t.answer = none
      · rw [if_pos hn] at h ⊢
        cases ok with
        | true =>
          simp only [if_true] at h ⊢
          obtain ⟨t, ht⟩ := key sid _ i h
          exact ⟨sid, i, t, ht⟩
        | false => exact absurd rfl h
      · rw [if_neg hn] at h; exact absurd rfl h
  | request sid ticket => exact absurd rfl h
  | expire sid oid =>
    simp only [step] at h ⊢
    cases hf : (n.sess sid).files oid with
    | none => rw [hf] at h; exact absurd rfl h
    | some f =>
      rw [hf] at h
      simp only at h ⊢
      obtain ⟨t, ht⟩ := key sid _ f.task h
      exact ⟨sid, f.task, t, ht⟩

theorem run_append (e : Env M) (n : Host M) (evs : List (Event M)) (ev : Event M) :
    run e n (evs ++ [ev]) = (step e (run e n evs) ev).1 := by simp [run]

/-- **C92** (partial: only files without `local_encryption_level`; one with it is meant to be the answer to a request of
the user, which is not checked). A file of another party is written only after the user accepted this file. -/
theorem C92_consent_partial (e : Env M) (fs : FS) (peers : Nat → Nat → Bool) (evs : List (Event M)) (ev : Event M)
    (h : (step e (run e (Host.init fs peers) evs) ev).1.fs ≠ (run e (Host.init fs peers) evs).fs)
    (hr : ∀ sid p, ev = .recv sid p → p.body.isRequest = false) :
    ∃ (sid i : Nat) (t : Task M), ((run e (Host.init fs peers) (evs ++ [ev])).sess sid).tasks[i]? = some t ∧
      (run e (Host.init fs peers) (evs ++ [ev])).fs =
        (store e (run e (Host.init fs peers) evs).fs t.cid t.kind t.meta_ (t.data.map Prod.snd).flatten).1 ∧
      (t.level = true ∨ .answer sid i true ∈ evs ++ [ev]) := by
  obtain ⟨sid, i, t, ht, hst, ha, hfs⟩ := step_writes h hr
  rw [run_append]
  refine ⟨sid, i, t, ht, hfs, ?_⟩
  let T : Nat → Nat → Task M → Prop := fun sid i t =>
    t.answer = some true → t.level = true ∨ .answer sid i true ∈ evs ++ [ev]
  let G : Nat → Nat → Who → Prop := fun _ _ _ => True
  have I : HInv T G (run e (Host.init fs peers) (evs ++ [ev])) := by
    refine hinv_run (fun sid => ⟨fun i t l h _ => h, fun i t h => h, fun i t h => h⟩) e (evs ++ [ev])
      (hinv_init T G fs peers) ?_ (fun _ _ _ _ _ _ _ => trivial) ?_
    · intro sid p _ i oid cid kind m total level ticket _ hl
      cases level with
      | true => exact .inl rfl
      | false => cases hl
    · intro sid i ok t hm _ hok
      simp only [Option.some.injEq] at hok
      subst hok
      exact .inr hm
  rw [run_append] at I
  exact (I sid).tasks i t ht ha

/-! ### C90 -/

/-- The client a party acts for: the files of the connection between client and server belong to the client of the
session. -/
def actsFor (sid : Nat) : Who → Nat
  | .c2s => sid
  | .p2p c => c

/-- The packet claims nothing about others: between client and server the header names the client, and the metadata
of a file names the sender. -/
def Honest (sid : Nat) (p : Packet M) : Prop :=
  (p.target = 0 → p.body.isRequest = true → p.session = sid) ∧
  ∀ oid cid kind m total level ticket, p.body = .header oid cid kind m total level ticket → cid = actsFor sid p.by_

/-- The client whose files a request is about. -/
theorem request_owner {sid : Nat} {s : Session M} {p : Packet M} (ha : accepts sid s p = true) (hh : Honest sid p)
    (hr : p.body.isRequest = true) : p.session = actsFor sid p.by_ := by
  unfold accepts ratchetFor at ha
  by_cases h0 : p.target = 0
  · simp only [h0, if_true, decide_eq_true_eq, Option.some.injEq] at ha
    rw [← ha]
    exact hh.1 h0 hr
  · simp only [h0, if_false] at ha
    by_cases h1 : p.target = sid
    · simp only [h1, if_true] at ha
      by_cases h2 : s.peers p.session = true
      · simp only [h2, if_true, decide_eq_true_eq, Option.some.injEq] at ha
        rw [← ha]; rfl
      · simp [h2] at ha
    · simp [h1] at ha

theorem area_not_base {e : Env M} {home : Str} (he : e.dirs = setup home) (cid : Nat) (k : Kind) {r : List Str}
    (h : r <+: e.V ∨ r <+: e.T) : ¬ e.area cid k <+: r := fun hp => by
  obtain ⟨hm, h1, h2⟩ := resolve_virtual e.cwd home
  have hV : e.V = hm ++ ["virtual".toList] := by rw [Env.V, he]; exact h1
  have hT : e.T = hm ++ ["transfers".toList] := by rw [Env.T, he]; exact h2
  have hl : (e.area cid k).length = hm.length + 2 := by cases k <;> simp [Env.area, hV, hT]
  have h3 : r.length ≤ hm.length + 1 := by
    rcases h with h | h
    · have := h.length_le; simpa [hV] using this
    · have := h.length_le; simpa [hT] using this
  have := hp.length_le
  omega

/-- A change of the file system that leaves everything outside of the areas of some clients alone. -/
def Within (e : Env M) (C : Nat → Prop) (fs fs' : FS) : Prop :=
  ∀ q, (∀ cid k, C cid → ¬ e.area cid k <+: q) → fs' q = fs q

theorem within_ready {e : Env M} {home : Str} (he : e.dirs = setup home) {C : Nat → Prop} {fs fs' : FS}
    (h : Within e C fs fs') (R : Ready e fs) : Ready e fs' := fun r hr hp => by
  rw [h r (fun cid k _ => area_not_base he cid k hp)]; exact R r hr hp

theorem within_trans {e : Env M} {C : Nat → Prop} {a b c : FS} (h1 : Within e C a b) (h2 : Within e C b c) :
    Within e C a c := fun q hq => (h2 q hq).trans (h1 q hq)

theorem within_settle {e : Env M} {home : Str} (he : e.dirs = setup home) {C : Nat → Prop} {fs : FS} (R : Ready e fs)
    {s : Session M} (hs : ∀ (i : Nat) (t : Task M), s.tasks[i]? = some t → C t.cid) (i : Nat) : Within e C fs (settle e fs s i).1 :=
  fun q hq => by
    unfold settle
    cases hx : s.tasks[i]? with
    | none => rfl
    | some t =>
      simp only
      split
      · exact C91_store_frame e he R _ _ _ _ (hq _ _ (hs i t hx))
      · rfl

/-- What a packet changes. -/
theorem within_handle {e : Env M} {home : Str} (he : e.dirs = setup home) {C : Nat → Prop} {fs : FS} (R : Ready e fs)
    {s : Session M} (hs : ∀ (i : Nat) (t : Task M), s.tasks[i]? = some t → C t.cid) (p : Packet M)
    (hp : p.body.isRequest = true → C p.session) : Within e C fs (handle e fs s p).1 := by
  have hfr : ∀ fs, Ready e fs → ∀ path, C p.session → Within e C fs (lookup e fs p.session path).1 :=
    fun fs R path hc q hq => C91_lookup_frame e he R _ _ (hq _ _ hc)
  unfold handle
  cases hb : p.body with
  | pull path del =>
    have hc := hp (by rw [hb]; rfl)
    have h1 := hfr fs R path hc
    simp only
    split
    · exact h1
    · cases del with
      | false => exact h1
      | true =>
        exact within_trans h1 fun q hq => (C91_delete_frame e he (within_ready he h1 R) _ _ (hq _ _ hc)).2
  | delete path =>
    have hc := hp (by rw [hb]; rfl)
    exact fun q hq => (C91_delete_frame e he R _ _ (hq _ _ hc)).1
  | header oid cid kind m total level ticket =>
    simp only
    split <;> exact fun q _ => rfl
  | ghdr gid oid waves =>
    simp only
    split
    · exact fun q _ => rfl
    · split <;> exact fun q _ => rfl
  | payload gid oid data =>
    simp only
    split
    · exact fun q _ => rfl
    · split
      · exact fun q _ => rfl
      · split
        · exact fun q _ => rfl
        · rename_i f _
          split
          · refine within_settle he R (fun i t h => ?_) _
            simp only [Session.modify, List.getElem?_modify] at h
            cases hx : s.tasks[i]? with
            | none => rw [hx] at h; simp at h
            | some t' =>
              rw [hx] at h
              have := hs i t' hx
              simp only [Option.map_eq_map, Option.map_some, Option.some.injEq] at h
              subst h
              split <;> exact this
          · exact fun q _ => rfl

theorem modify_cid {s : Session M} {C : Nat → Prop} (hs : ∀ (i : Nat) (t : Task M), s.tasks[i]? = some t → C t.cid) (j : Nat)
    (f : Task M → Task M) (hf : ∀ t, (f t).cid = t.cid) : ∀ (i : Nat) (t : Task M), (s.modify j f).tasks[i]? = some t → C t.cid := by
  intro i t h
  simp only [Session.modify, List.getElem?_modify] at h
  cases hx : s.tasks[i]? with
  | none => rw [hx] at h; simp at h
  | some t' =>
    rw [hx] at h
    have := hs i t' hx
    simp only [Option.map_eq_map, Option.map_some, Option.some.injEq] at h
    subst h
    split
    · rw [hf]; exact this
    · exact this

/-- One step. -/
theorem within_step {e : Env M} {home : Str} (he : e.dirs = setup home) {C : Nat → Prop} {n : Host M} (R : Ready e n.fs)
    (hs : ∀ (sid i : Nat) (t : Task M), (n.sess sid).tasks[i]? = some t → C t.cid) (ev : Event M)
    (hp : ∀ sid p, recvBy n ev sid p → p.body.isRequest = true → C p.session) :
    Within e C n.fs (step e n ev).1.fs := by
  cases ev with
  | recv sid p =>
    simp only [step]
    split
    · rename_i ha
      exact within_handle he R (hs sid) p (hp sid p ⟨rfl, ha⟩)
    · exact fun q _ => rfl
  | answer sid i ok =>
    simp only [step]
    split
    · exact fun q _ => rfl
    · split
      · split
        · exact within_settle he R (modify_cid (hs sid) i (fun t => { t with answer := some ok }) (fun _ => rfl)) _
        · exact fun q _ => rfl
      · exact fun q _ => rfl
  | request sid ticket => exact fun q _ => rfl
  | expire sid oid =>
    simp only [step]
    split
    · exact fun q _ => rfl
    · rename_i f _
      exact within_settle he R (modify_cid (s := { n.sess sid with files := put (n.sess sid).files oid none }) (hs sid)
        f.task (fun t => { t with closed := true }) (fun _ => rfl)) _

theorem within_run {e : Env M} {home : Str} (he : e.dirs = setup home) (C : Nat → Prop) (evs : List (Event M))
    {n : Host M} (R : Ready e n.fs) (I : HInv (fun _ _ t => C t.cid) (fun _ _ _ => True) n)
    (hh : ∀ sid p, (sid, p) ∈ received e n evs → Honest sid p ∧ C (actsFor sid p.by_)) :
    Within e C n.fs (run e n evs).fs := by
  induction evs generalizing n with
  | nil => exact fun q _ => rfl
  | cons ev r ih =>
    have h1 := within_step he R (fun sid => (I sid).tasks) ev (fun sid p hb hq => by
      obtain ⟨h, hc⟩ := hh sid p (mem_received hb)
      rw [request_owner hb.2 h hq]; exact hc)
    refine within_trans h1 (ih (within_ready he h1 R) ?_ (fun sid p h => hh sid p (List.mem_append_right _ h)))
    refine hinv_step (fun sid => ⟨fun _ _ _ h _ => h, fun _ _ h => h, fun _ _ h => h⟩) e I ev ?_
      (fun _ _ _ _ _ _ _ => trivial) (fun _ _ _ _ _ h => h)
    intro sid p hb oid cid kind m total level ticket hbd
    obtain ⟨h, hc⟩ := hh sid p (mem_received hb)
    show C cid
    rw [h.2 _ _ _ _ _ _ _ hbd]; exact hc

/-- **C90** (partial: the packets are honest about the client they act for, see `Honest`). Whatever other clients and
the local user do, the files of a client stay as they are unless they send packets themselves. -/
theorem C90_isolation_partial (e : Env M) {home : Str} (he : e.dirs = setup home) {fs : FS} (R : Ready e fs)
    (peers : Nat → Nat → Bool) (evs : List (Event M)) (cid : Nat)
    (hh : ∀ sid p, (sid, p) ∈ received e (Host.init fs peers) evs → Honest sid p ∧ actsFor sid p.by_ ≠ cid)
    (q : List Str) (k : Kind) (hq : e.area cid k <+: q) : (run e (Host.init fs peers) evs).fs q = fs q := by
  refine within_run he (fun c => c ≠ cid) evs (n := Host.init fs peers) R (hinv_init _ _ fs peers) hh q ?_
  intro c k' hc ha
  exact hc (C91_areas_disjoint e he c cid k' k q ha hq).1

/-- **C90.** Between peers, requests need no honesty: a peer pulls and deletes their own files only. -/
theorem C90_p2p_requests (e : Env M) {home : Str} (he : e.dirs = setup home) {n : Host M} (R : Ready e n.fs) (sid : Nat)
    (p : Packet M) (ht : p.target ≠ 0) (hr : p.body.isRequest = true) (q : List Str)
    (hq : ∀ k, ¬ e.area (actsFor sid p.by_) k <+: q) : (step e n (.recv sid p)).1.fs q = n.fs q := by
  simp only [step]
  split
  · rename_i ha
    have ho : p.session = actsFor sid p.by_ := request_owner (sid := sid) ha
      ⟨fun h => absurd h ht, fun _ _ _ _ _ _ _ hb => by rw [hb] at hr; cases hr⟩ hr
    -- no task is touched
    have h : Within e (fun c => c = p.session) n.fs (handle e n.fs { n.sess sid with tasks := [] } p).1 :=
      within_handle he R (fun i t h => by simp at h) p (fun _ => rfl)
    have h2 : (handle e n.fs { n.sess sid with tasks := [] } p).1 = (handle e n.fs (n.sess sid) p).1 := by
      unfold handle
      cases hb : p.body with
      | pull path del => simp only; split <;> rfl
      | delete path => rfl
      | header => rw [hb] at hr; cases hr
      | ghdr => rw [hb] at hr; cases hr
      | payload => rw [hb] at hr; cases hr
    rw [h2] at h
    exact h q (fun cid k hc => by rw [hc, ho]; exact hq k)
  · rfl

/-- What a lookup finds depends on the area of the client only. -/
theorem lookup_local {e : Env M} {home : Str} (he : e.dirs = setup home) {fs fs' : FS} (R : Ready e fs)
    (R' : Ready e fs') (cid : Nat) (path : Str)
    (h : ∀ q, e.V ++ [cidStr cid] <+: q → fs q = fs' q) : (lookup e fs cid path).2 = (lookup e fs' cid path).2 := by
  unfold lookup prepare
  rw [he]
  cases hg : getFilePath (setup home) cid (.virtual path) with
  | none => rfl
  | some p =>
    simp only
    have hV : e.V = resolve e.cwd (setup home).virtualDir := by rw [Env.V, he]
    have hp : e.V ++ [cidStr cid] <+: resolve e.cwd p := by
      rw [virtual_place _ hg, hV]; exact List.prefix_append _ _
    have hm : e.V ++ [cidStr cid] <+: resolve e.cwd (metaPath p) := by
      rw [meta_place _ hg, hV]; exact List.prefix_append _ _
    have hb : blocked fs [] (resolve e.cwd p).dropLast = blocked fs' [] (resolve e.cwd p).dropLast := by
      have key : ∀ r, r ≠ [] → r <+: (resolve e.cwd p).dropLast → fs r = fs' r := fun r hr hpr => by
        by_cases ha : e.V ++ [cidStr cid] <+: r
        · exact h r ha
        · obtain ⟨rest, hrest⟩ := hp
          have h1 : r <+: e.V ++ [cidStr cid] ++ rest := by
            rw [hrest]; exact hpr.trans (List.dropLast_prefix _)
          have h2 := area_base h1 ha
          rw [R r hr (.inl h2), R' r hr (.inl h2)]
      apply Bool.eq_iff_iff.mpr
      have : (blocked fs [] (resolve e.cwd p).dropLast = false) ↔ (blocked fs' [] (resolve e.cwd p).dropLast = false) := by
        rw [blocked_iff, blocked_iff]
        constructor
        · intro hx r hr hpr b
          rw [List.nil_append, ← key r hr hpr]; exact hx r hr hpr b
        · intro hx r hr hpr b
          rw [List.nil_append, key r hr hpr]; exact hx r hr hpr b
      rw [← Bool.not_eq_false, ← Bool.not_eq_false, this]
    have hread : ∀ q x, e.V ++ [cidStr cid] <+: resolve e.cwd x →
        read e.cwd (fun r => if r ≠ [] ∧ r.isPrefixOf q = true then some Node.dir else fs r) x =
        read e.cwd (fun r => if r ≠ [] ∧ r.isPrefixOf q = true then some Node.dir else fs' r) x := fun q x hx => by
      unfold read
      simp only [h _ hx]
    cases hbk : blocked fs [] (resolve e.cwd p).dropLast with
    | true =>
      rw [hbk] at hb
      simp [createDirAll, hbk, ← hb]
    | false =>
      rw [hbk] at hb
      simp only [createDirAll, hbk, ← hb, Bool.false_eq_true, if_false]
      rw [hread _ _ hm, hread _ _ hp]
      split <;> simp_all

/-- **C90.** What a pull sends back depends on the files of the requesting client only (for a client of a server: if the
header names them). -/
theorem C90_reply_partial (e : Env M) {home : Str} (he : e.dirs = setup home) {n n' : Host M} (R : Ready e n.fs)
    (R' : Ready e n'.fs) (hs : n.sess = n'.sess) (sid : Nat) (p : Packet M) (hh : Honest sid p)
    (h : ∀ q k, e.area (actsFor sid p.by_) k <+: q → n.fs q = n'.fs q) :
    (step e n (.recv sid p)).2 = (step e n' (.recv sid p)).2 := by
  simp only [step]
  rw [← hs]
  split
  · rename_i ha
    unfold handle
    cases hb : p.body with
    | pull path del =>
      have ho := request_owner ha hh (by rw [hb]; rfl)
      have := lookup_local he R R' p.session path (fun q hq => h q (.virtual path) (by rw [← ho]; exact hq))
      simp only
      rw [← this]
      split <;> rfl
    | delete path => rfl
    | header oid cid kind m total level ticket => simp only; split <;> rfl
    | ghdr gid oid waves =>
      simp only
      split
      · rfl
      · split <;> rfl
    | payload gid oid data =>
      simp only
      split
      · rfl
      · split
        · rfl
        · split
          · rfl
          · split <;> rfl
  · rfl

/-! ### Examples and counterexamples -/

/-- A host like the server of the other examples, whose clients have no peers at the server; the client 7 has the
peers 8 and 9. -/
def h0 : Host Bytes := Host.init fs0 (fun sid c => sid = 7 && (c = 8 || c = 9))

/-- A client of the server sends a file with the given metadata, which has one group and one wave. -/
def upload (sid cid oid : Nat) (path : String) (m data : Bytes) : List (Event Bytes) :=
  [.recv sid ⟨sid, 0, .c2s, .header oid cid (.virtual path.toList) m 1 false 1⟩, .answer sid 0 true,
   .recv sid ⟨sid, 0, .c2s, .ghdr 0 oid 1⟩, .recv sid ⟨sid, 0, .c2s, .payload 0 oid data⟩]

def pulls (sid session : Nat) (path : String) (del : Bool) : Event Bytes :=
  .recv sid ⟨session, 0, .c2s, .pull path.toList del⟩

/-- Client 5 stores a file and gets it back; it is where it should be. -/
example : (step srv (run srv h0 (upload 5 5 3 "/a" [9] [1, 2])) (pulls 5 5 "/a" false)).2 = some ([9], [1, 2]) ∧
    (step srv (run srv h0 (upload 5 5 3 "/a" [9] [1, 2])) (pulls 6 6 "/a" false)).2 = none := by decide +kernel

/-- The hypotheses of `C90_isolation_partial` are met by the packets of client 6 for the files of client 5. -/
example : ∀ sid p, (sid, p) ∈ received srv h0 (upload 6 6 3 "/a" [9] [1, 2] ++ [pulls 6 6 "/a" true]) →
    Honest sid p ∧ actsFor sid p.by_ ≠ 5 := by
  have hrec : received srv h0 (upload 6 6 3 "/a" [9] [1, 2] ++ [pulls 6 6 "/a" true]) =
      [(6, ⟨6, 0, .c2s, .header 3 6 (.virtual "/a".toList) [9] 1 false 1⟩), (6, ⟨6, 0, .c2s, .ghdr 0 3 1⟩),
       (6, ⟨6, 0, .c2s, .payload 0 3 [1, 2]⟩), (6, ⟨6, 0, .c2s, .pull "/a".toList true⟩)] := by rfl
  rw [hrec]
  intro sid p h
  simp only [List.mem_cons, Prod.mk.injEq, List.not_mem_nil, or_false] at h
  rcases h with ⟨rfl, rfl⟩ | ⟨rfl, rfl⟩ | ⟨rfl, rfl⟩ | ⟨rfl, rfl⟩ <;>
    exact ⟨⟨fun _ _ => rfl, fun _ _ _ _ _ _ _ hb => by cases hb <;> rfl⟩, by decide⟩

/-- **C90** is false for clients of a server: the client 6 reads and deletes the file of client 5 by writing the id of
client 5 into the header, and replaces it by writing it into the metadata. -/
theorem C90_counterexample :
    (step srv (run srv h0 (upload 5 5 3 "/a" [9] [1, 2])) (pulls 6 5 "/a" true)).2 = some ([9], [1, 2]) ∧
    (step srv (run srv h0 (upload 5 5 3 "/a" [9] [1, 2] ++ [pulls 6 5 "/a" true])) (pulls 5 5 "/a" false)).2 = none ∧
    (step srv (run srv h0 (upload 5 5 3 "/a" [9] [1, 2] ++
      [.recv 6 ⟨5, 0, .c2s, .delete "/a".toList⟩])) (pulls 5 5 "/a" false)).2 = none ∧
    (step srv (run srv h0 (upload 5 5 3 "/a" [9] [1, 2] ++ upload 6 5 4 "/a" [8] [6, 6])) (pulls 5 5 "/a" false)).2 =
      some ([8], [6, 6]) := by decide +kernel

/-- The hypotheses of `C92_consent_partial` are met by the last packet of an upload: it changes the file system. -/
example : (step srv (run srv h0 ((upload 5 5 3 "/a" [9] [1, 2]).take 3))
      (.recv 5 ⟨5, 0, .c2s, .payload 0 3 [1, 2]⟩)).1.fs ≠ (run srv h0 ((upload 5 5 3 "/a" [9] [1, 2]).take 3)).fs ∧
    ∀ sid p, Event.recv 5 (⟨5, 0, .c2s, .payload 0 3 [1, 2]⟩ : Packet Bytes) = .recv sid p → p.body.isRequest = false := by
  refine ⟨fun h => ?_, fun sid p h => by cases h; rfl⟩
  have := congrFun h (srv.V ++ ["5".toList, "a".toList])
  revert this
  decide +kernel

/-- **C92** is false: the peer 8 claims a local encryption level, and its file is written although the user of client 7
neither requested nor accepted anything. -/
theorem C92_counterexample :
    let evs : List (Event Bytes) :=
      [.recv 7 ⟨8, 7, .p2p 8, .header 3 8 (.plain "x".toList) [] 1 true 1⟩, .recv 7 ⟨8, 7, .p2p 8, .ghdr 0 3 1⟩,
       .recv 7 ⟨8, 7, .p2p 8, .payload 0 3 [6, 6]⟩]
    (run srv h0 evs).fs (srv.T ++ ["8".toList, "x".toList]) = some (.file [6, 6]) ∧
    h0.fs (srv.T ++ ["8".toList, "x".toList]) = none ∧
    (∀ sid i ok, .answer sid i ok ∉ evs) ∧ ∀ sid ticket, .request sid ticket ∉ evs := by
  refine ⟨by decide +kernel, by decide +kernel, ?_, ?_⟩ <;> simp

/-- The hypotheses of `C94_data_of_offerer_partial` are met by two peers that send files with different ids. -/
def twoFiles : List (Event Bytes) :=
  [.recv 7 ⟨8, 7, .p2p 8, .header 3 8 (.plain "x".toList) [] 2 false 1⟩,
   .recv 7 ⟨9, 7, .p2p 9, .header 4 9 (.plain "y".toList) [] 1 false 1⟩, .answer 7 0 true, .answer 7 1 true,
   .recv 7 ⟨8, 7, .p2p 8, .ghdr 0 3 2⟩, .recv 7 ⟨9, 7, .p2p 9, .ghdr 0 4 1⟩, .recv 7 ⟨8, 7, .p2p 8, .payload 0 3 [1]⟩,
   .recv 7 ⟨9, 7, .p2p 9, .payload 0 4 [5]⟩, .recv 7 ⟨8, 7, .p2p 8, .payload 0 3 [2]⟩]

example : ∀ sid p p', (sid, p) ∈ received srv h0 twoFiles → (sid, p') ∈ received srv h0 twoFiles →
    ∀ o, p.body.object = some o → p'.body.object = some o → p.by_ = p'.by_ := by
  have h : ∀ x ∈ received srv h0 twoFiles, ∀ y ∈ received srv h0 twoFiles,
      x.2.body.object.isSome → x.2.body.object = y.2.body.object → x.2.by_ = y.2.by_ := by decide +kernel
  exact fun sid p p' hp hp' o ho ho' => h _ hp _ hp' (by simp [ho]) (by rw [ho, ho'])

example : ((run srv h0 twoFiles).sess 7).tasks.map (fun t => (t.by_, t.data, t.stored)) =
    [(.p2p 8, [(.p2p 8, [1]), (.p2p 8, [2])], false), (.p2p 9, [(.p2p 9, [5])], true)] := by decide +kernel

/-- **C94** is false: the peer 9 sends a group for the file offered by peer 8 and completes it with its own data; the
server can do the same with the ratchet of its own connection. -/
theorem C94_counterexample (other : Packet Bytes → Packet Bytes)
    (ho : other = (fun p => { p with session := 9, target := 7, by_ := .p2p 9 }) ∨
      other = (fun p => { p with session := 7, target := 0, by_ := .c2s })) :
    let evs : List (Event Bytes) :=
      [.recv 7 ⟨8, 7, .p2p 8, .header 3 8 (.plain "x".toList) [] 2 false 1⟩, .answer 7 0 true,
       .recv 7 ⟨8, 7, .p2p 8, .ghdr 0 3 1⟩, .recv 7 ⟨8, 7, .p2p 8, .payload 0 3 [1]⟩,
       .recv 7 (other ⟨0, 0, .c2s, .ghdr 5 3 1⟩), .recv 7 (other ⟨0, 0, .c2s, .payload 5 3 [6, 6]⟩)]
    (run srv h0 evs).fs (srv.T ++ ["8".toList, "x".toList]) = some (.file [1, 6, 6]) := by
  rcases ho with rfl | rfl <;> decide +kernel

end Verif.FileStore

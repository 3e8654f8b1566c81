import Verif.FileStore.NetProps
/-
C148: a file that is sent in order arrives as it was sent.
-/
namespace Verif.FileStore

variable {M : Type}

/-- The packets of one group: its header and its waves. -/
def groupOf (mk : Body M → Event M) (oid gid : Nat) (ws : List Bytes) : List (Event M) :=
  mk (.ghdr gid oid ws.length) :: ws.map fun d => mk (.payload gid oid d)

/-- The groups of a file from number `g` on. -/
def groupsFrom (mk : Body M → Event M) (oid : Nat) : Nat → List (List Bytes) → List (Event M)
  | _, [] => []
  | g, ws :: r => groupOf mk oid g ws ++ groupsFrom mk oid (g + 1) r

/-- Half-way: the file of task `i` is being received, groups below `g` are complete. -/
structure Mid (n : Host M) (sid session oid i total : Nat) (t : Task M) (peers : Nat → Bool) (fs : FS) (g : Nat) : Prop where
  fs : n.fs = fs
  files : (n.sess sid).files oid = some ⟨i, total⟩
  task : (n.sess sid).tasks[i]? = some t
  peers : (n.sess sid).peers = peers
  free : ∀ gid, g ≤ gid → (n.sess sid).groups (session, gid, oid) = none

theorem getElem?_modify_self {α : Type} {l : List α} {i : Nat} {f : α → α} {x : α} (h : l[i]? = some x) :
    (l.modify i f)[i]? = some (f x) := by
  rw [List.getElem?_modify, h]; simp

theorem accepts_peers {sid : Nat} {s s' : Session M} (h : s.peers = s'.peers) (p : Packet M) :
    accepts sid s p = accepts sid s' p := by
  unfold accepts ratchetFor
  rw [h]

theorem accepts_body {sid : Nat} {s : Session M} {session target : Nat} {w : Who} (b b' : Body M) :
    accepts sid s ⟨session, target, w, b⟩ = accepts sid s ⟨session, target, w, b'⟩ := rfl

theorem sess_setS (n : Host M) (sid : Nat) (fs : FS) (s : Session M) : (n.setS sid fs s).sess sid = s := by
  simp [Host.setS]

theorem fs_setS (n : Host M) (sid : Nat) (fs : FS) (s : Session M) : (n.setS sid fs s).fs = fs := rfl

section
variable {e : Env M} {sid session target oid i total : Nat} {w : Who} {peers : Nat → Bool} {fs : FS} {t : Task M}

/-- The waves of a group that is not the last one. -/
theorem waves_mid (hacc : ∀ (s : Session M) b, s.peers = peers → accepts sid s ⟨session, target, w, b⟩ = true) {g : Nat}
    (hg : g + 1 < total) (rest : List Bytes) : ∀ (n : Host M) (got : List (Who × Bytes)), rest ≠ [] →
    Mid n sid session oid i total t peers fs (g + 1) →
    (n.sess sid).groups (session, g, oid) = some (got.length + rest.length, got) →
    Mid (run e n (rest.map fun d => .recv sid ⟨session, target, w, .payload g oid d⟩)) sid session oid i total
      { t with data := t.data ++ (got ++ rest.map fun d => (w, d)) } peers fs (g + 1) := by
  induction rest with
  | nil => intro n got h; exact absurd rfl h
  | cons d rest ih =>
    intro n got _ hm hk
    have ha := hacc (n.sess sid) (.payload g oid d) hm.peers
    simp only [List.map_cons, run, List.foldl_cons, step, ha, if_true, handle, hk]
    cases rest with
    | nil =>
      have : ¬ (got ++ [(w, d)]).length < got.length + 1 := by simp
      have h2 : ¬ g ≥ total - 1 := by omega
      simp only [List.length_singleton, this, if_false, hm.files, h2, List.map_nil, List.foldl_nil]
      exact ⟨(fs_setS ..).trans hm.fs, by rw [sess_setS]; exact hm.files,
        by rw [sess_setS]; exact getElem?_modify_self hm.task, by rw [sess_setS]; exact hm.peers, fun gid h => by
          rw [sess_setS]; simp only [Session.modify, put]
          rw [if_neg (by simp; omega)]; exact hm.free gid h⟩
    | cons d' rest =>
      have : (got ++ [(w, d)]).length < got.length + (d :: d' :: rest).length := by simp
      simp only [this, if_true]
      have := ih (n.setS sid n.fs { n.sess sid with
          groups := put (n.sess sid).groups (session, g, oid)
            (some (got.length + (d :: d' :: rest).length, got ++ [(w, d)])) })
        (got ++ [(w, d)]) (by simp)
        ⟨(fs_setS ..).trans hm.fs, by rw [sess_setS]; exact hm.files, by rw [sess_setS]; exact hm.task,
          by rw [sess_setS]; exact hm.peers, fun gid h => by
            rw [sess_setS]; simp only [put]
            rw [if_neg (by simp; omega)]; exact hm.free gid h⟩
        (by rw [sess_setS]; simp [put]; omega)
      simp only [List.append_assoc, List.singleton_append] at this
      exact this

/-- The waves of the last group. -/
theorem waves_last (hacc : ∀ (s : Session M) b, s.peers = peers → accepts sid s ⟨session, target, w, b⟩ = true) {g : Nat}
    (hg : g + 1 = total) (hs : t.stored = false) (rest : List Bytes) :
    ∀ (n : Host M) (got : List (Who × Bytes)), rest ≠ [] →
    Mid n sid session oid i total t peers fs (g + 1) →
    (n.sess sid).groups (session, g, oid) = some (got.length + rest.length, got) →
    let t' := { t with data := t.data ++ (got ++ rest.map fun d => (w, d)), closed := true }
    let n' := run e n (rest.map fun d => .recv sid ⟨session, target, w, .payload g oid d⟩)
    (n'.sess sid).files oid = none ∧
    n'.fs = (if t.answer = some true then (store e fs t.cid t.kind t.meta_ (t'.data.map Prod.snd).flatten).1 else fs) ∧
    (n'.sess sid).tasks[i]? = some { t' with stored := decide (t.answer = some true) } := by
  induction rest with
  | nil => intro n got h; exact absurd rfl h
  | cons d rest ih =>
    intro n got _ hm hk
    have ha := hacc (n.sess sid) (.payload g oid d) hm.peers
    simp only [List.map_cons, run, List.foldl_cons, step, ha, if_true, handle, hk]
    cases rest with
    | nil =>
      have : ¬ (got ++ [(w, d)]).length < got.length + 1 := by simp
      have h2 : g ≥ total - 1 := by omega
      simp only [List.length_singleton, this, if_false, hm.files, h2, if_true, List.map_nil, List.foldl_nil, sess_setS, fs_setS]
      have ht : (((({ n.sess sid with groups := put (n.sess sid).groups (session, g, oid) none } : Session M).modify i
          fun t => { t with data := t.data ++ (got ++ [(w, d)]) }).tasks).modify i
            fun t => { t with closed := true })[i]? =
          some { t with data := t.data ++ (got ++ [(w, d)]), closed := true } :=
        getElem?_modify_self (getElem?_modify_self hm.task)
      have hlt : i < ((({ n.sess sid with groups := put (n.sess sid).groups (session, g, oid) none } : Session M).modify i
          fun t => { t with data := t.data ++ (got ++ [(w, d)]) }).tasks.modify i
            fun t => { t with closed := true }).length := (List.getElem?_eq_some_iff.mp ht).1
      unfold settle
      simp only [Session.modify] at ht hlt ⊢
      rw [ht]
      by_cases hans : t.answer = some true
      · simp only [hans, hs, and_self, if_true, decide_true]
        refine ⟨by simp [put], by rw [hm.fs], ?_⟩
        rw [List.getElem?_set_self hlt]
      · simp only [hans, false_and, if_false, decide_false]
        refine ⟨by simp [put], hm.fs, ?_⟩
        rw [ht, ← hs]
    | cons d' rest =>
      have : (got ++ [(w, d)]).length < got.length + (d :: d' :: rest).length := by simp
      simp only [this, if_true]
      have := ih (n.setS sid n.fs { n.sess sid with
          groups := put (n.sess sid).groups (session, g, oid)
            (some (got.length + (d :: d' :: rest).length, got ++ [(w, d)])) })
        (got ++ [(w, d)]) (by simp)
        ⟨(fs_setS ..).trans hm.fs, by rw [sess_setS]; exact hm.files, by rw [sess_setS]; exact hm.task,
          by rw [sess_setS]; exact hm.peers, fun gid h => by
            rw [sess_setS]; simp only [put]
            rw [if_neg (by simp; omega)]; exact hm.free gid h⟩
        (by rw [sess_setS]; simp [put]; omega)
      simp only [List.append_assoc, List.singleton_append] at this
      exact this

/-- The header of a group. -/
theorem ghdr_step (hacc : ∀ (s : Session M) b, s.peers = peers → accepts sid s ⟨session, target, w, b⟩ = true) {g waves : Nat}
    {n : Host M} (hm : Mid n sid session oid i total t peers fs g) :
    let n' := (step e n (.recv sid ⟨session, target, w, .ghdr g oid waves⟩)).1
    Mid n' sid session oid i total t peers fs (g + 1) ∧ (n'.sess sid).groups (session, g, oid) = some (waves, []) := by
  have ha := hacc (n.sess sid) (.ghdr g oid waves) hm.peers
  simp only [step, ha, if_true, handle, hm.free g (Nat.le_refl _), hm.files, Option.isSome_some]
  refine ⟨⟨(fs_setS ..).trans hm.fs, by rw [sess_setS]; exact hm.files, by rw [sess_setS]; exact hm.task,
    by rw [sess_setS]; exact hm.peers, fun gid h => ?_⟩, ?_⟩
  · rw [sess_setS]; simp only [put]
    rw [if_neg (by simp; omega)]; exact hm.free gid (by omega)
  · rw [sess_setS]; simp [put]

theorem groups_run (hacc : ∀ (s : Session M) b, s.peers = peers → accepts sid s ⟨session, target, w, b⟩ = true)
    (gs : List (List Bytes)) : ∀ (n : Host M) (t : Task M) (g : Nat), gs ≠ [] → (∀ ws ∈ gs, ws ≠ []) → t.stored = false →
    g + gs.length = total → Mid n sid session oid i total t peers fs g →
    let t' := { t with data := t.data ++ gs.flatten.map fun d => (w, d), closed := true }
    let n' := run e n (groupsFrom (fun b => .recv sid ⟨session, target, w, b⟩) oid g gs)
    (n'.sess sid).files oid = none ∧
    n'.fs = (if t.answer = some true then (store e fs t.cid t.kind t.meta_ (t'.data.map Prod.snd).flatten).1 else fs) ∧
    (n'.sess sid).tasks[i]? = some { t' with stored := decide (t.answer = some true) } := by
  induction gs with
  | nil => intro n t g h; exact absurd rfl h
  | cons ws gs ih =>
    intro n t g _ hne hs hg hm
    have hw := hne ws (by simp)
    obtain ⟨h1, h2⟩ := ghdr_step (e := e) (waves := ws.length) hacc hm
    simp only [groupsFrom, groupOf, List.cons_append, run, List.foldl_cons, List.foldl_append]
    cases gs with
    | nil =>
      have := waves_last (e := e) hacc (by simpa using hg) hs ws _ [] hw h1 (by simpa using h2)
      simpa [groupsFrom, run] using this
    | cons ws' gs =>
      have := waves_mid (e := e) hacc (by simp at hg; omega) ws _ [] hw h1 (by simpa using h2)
      have := ih _ { t with data := t.data ++ ([] ++ ws.map fun d => (w, d)) } (g + 1) (by simp)
        (fun x hx => hne x (List.mem_cons_of_mem _ hx)) hs (by simp at hg ⊢; omega) this
      simpa [run] using this

/-- **C148.** A file offered under an id that is not in use and sent group by group is written as it was sent: at the end
of its last group when it was accepted before, or when it is accepted after it. -/
theorem C148_arrives (e : Env M) (n : Host M) (sid session target oid cid : Nat) (w : Who) (kind : Kind) (m : M) (level : Bool)
    (ticket : Nat) (gs : List (List Bytes))
    (hacc : accepts sid (n.sess sid) ⟨session, target, w, .ghdr 0 0 0⟩ = true) (ho : (n.sess sid).files oid = none)
    (hfree : ∀ gid, (n.sess sid).groups (session, gid, oid) = none) (hg : gs ≠ []) (hw : ∀ ws ∈ gs, ws ≠ []) :
    let mk : Body M → Event M := fun b => .recv sid ⟨session, target, w, b⟩
    let i := (n.sess sid).tasks.length
    let offer := mk (.header oid cid kind m gs.length level ticket)
    let all := groupsFrom mk oid 0 gs
    let written := (store e n.fs cid kind m gs.flatten.flatten).1
    (level = true → (run e n (offer :: all)).fs = written) ∧
    (level = false → (run e n (offer :: .answer sid i true :: all)).fs = written ∧
      (run e n (offer :: (all ++ [.answer sid i true]))).fs = written ∧
      (run e n (offer :: (all ++ [.answer sid i false]))).fs = n.fs) := by
  intro mk i offer all written
  have hacc' : ∀ (s : Session M) b, s.peers = (n.sess sid).peers → accepts sid s ⟨session, target, w, b⟩ = true :=
    fun s b hs => (accepts_peers hs _).trans hacc
  let t0 : Task M := Task.new w oid cid kind m level ticket
  let n1 := (step e n offer).1
  have hm : Mid n1 sid session oid i gs.length t0 (n.sess sid).peers n.fs 0 := by
    have ha := hacc' (n.sess sid) (.header oid cid kind m gs.length level ticket) rfl
    show Mid (step e n offer).1 _ _ _ _ _ _ _ _ _
    simp only [offer, mk, step, ha, if_true, handle, ho]
    refine ⟨fs_setS .., ?_, ?_, ?_, fun gid _ => ?_⟩
    · rw [sess_setS]; simp [put, i]
    · rw [sess_setS]; simp [i, t0]
    · rw [sess_setS]
    · rw [sess_setS]; exact hfree gid
  have hdata : ∀ t : Task M, t.data = [] →
      ((t.data ++ gs.flatten.map fun d => (w, d)).map Prod.snd).flatten = gs.flatten.flatten := by
    intro t ht
    rw [ht, List.nil_append, List.map_map]
    have : (Prod.snd ∘ fun d => (w, d)) = (id : Bytes → Bytes) := rfl
    rw [this, List.map_id]
  have hr : ∀ l, run e n (offer :: l) = run e n1 l := fun l => rfl
  refine ⟨fun hl => ?_, fun hl => ⟨?_, ?_, ?_⟩⟩
  · rw [hr]
    have := (groups_run (e := e) hacc' gs n1 t0 0 hg hw rfl (by omega) hm).2.1
    rw [this, if_pos (by simp [t0, Task.new, hl]), hdata t0 rfl]
    rfl
  · rw [hr]
    show (run e (step e n1 (.answer sid i true)).1 all).fs = written
    have hna : t0.answer = none := by simp [t0, Task.new, hl]
    let t1 : Task M := { t0 with answer := some true }
    have hm1 : Mid (step e n1 (.answer sid i true)).1 sid session oid i gs.length t1 (n.sess sid).peers n.fs 0 := by
      have hmod : (List.modify (n1.sess sid).tasks i fun t => { t with answer := some true })[i]? = some t1 :=
        getElem?_modify_self hm.task
      have hcl : t1.closed = false := rfl
      simp only [step, hm.task, hna, if_true]
      have hset : settle e n1.fs ((n1.sess sid).modify i fun t => { t with answer := some true }) i =
          (n1.fs, (n1.sess sid).modify i fun t => { t with answer := some true }) := by
        unfold settle
        simp only [Session.modify, hmod, hcl, Bool.false_eq_true, false_and, and_false, if_false]
      rw [hset]
      exact ⟨hm.fs, by rw [sess_setS]; exact hm.files, by rw [sess_setS]; exact hmod, by rw [sess_setS]; exact hm.peers,
        fun gid h => by rw [sess_setS]; exact hm.free gid h⟩
    have := (groups_run (e := e) hacc' gs _ t1 0 hg hw rfl (by omega) hm1).2.1
    rw [this, if_pos rfl, hdata t1 rfl]
    rfl
  · rw [hr]
    have hna : t0.answer = none := by simp [t0, Task.new, hl]
    have := groups_run (e := e) hacc' gs n1 t0 0 hg hw rfl (by omega) hm
    obtain ⟨-, hfs, htask⟩ := this
    rw [hna] at hfs htask
    simp only [reduceCtorEq, if_false, decide_false] at hfs htask
    simp only [run, List.foldl_append, List.foldl_cons, List.foldl_nil]
    show (step e (run e n1 all) _).1.fs = written
    have hmod := getElem?_modify_self (f := fun t : Task M => { t with answer := some true }) htask
    simp only [step]
    rw [htask]
    simp only [if_true]
    rw [fs_setS]
    unfold settle
    simp only [Session.modify]
    rw [hmod]
    simp only [and_self, if_true]
    rw [hfs, hdata t0 rfl]
    rfl
  · rw [hr]
    have hna : t0.answer = none := by simp [t0, Task.new, hl]
    have := groups_run (e := e) hacc' gs n1 t0 0 hg hw rfl (by omega) hm
    obtain ⟨-, hfs, htask⟩ := this
    rw [hna] at hfs htask
    simp only [reduceCtorEq, if_false, decide_false] at hfs htask
    simp only [run, List.foldl_append, List.foldl_cons, List.foldl_nil]
    show (step e (run e n1 all) _).1.fs = n.fs
    simp only [step]
    rw [htask]
    simp only [if_true, Bool.false_eq_true, if_false]
    rw [fs_setS]
    exact hfs

end

/-- A plain name: one that is no directory and not in another one. -/
def Simple (name : Str) : Prop := name ≠ [] ∧ '/' ∉ name ∧ name ≠ ['.'] ∧ name ≠ ['.', '.']

instance (name : Str) : Decidable (Simple name) := by unfold Simple; infer_instance

/-- What a successful `store` of a file under a plain name leaves: the data, in the directory of the client. -/
theorem C148_written (e : Env M) {home : Str} (he : e.dirs = setup home) (fs : FS) (cid : Nat) (name : Str) (m : M)
    (data : Bytes) (h : (store e fs cid (.plain name) m data).2 = true) :
    ∃ p, getFilePath e.dirs cid (.plain name) = some p ∧ read e.cwd (store e fs cid (.plain name) m data).1 p = some data := by
  unfold store at h ⊢
  cases hp : prepare e fs cid (.plain name) with
  | mk fs1 o =>
    rw [hp] at h
    cases o with
    | none => cases h
    | some p =>
      refine ⟨p, by rw [he]; exact (prepare_spec he hp).1, ?_⟩
      simp only at h ⊢
      cases hw : write e.cwd fs1 p [] with
      | none => rw [hw] at h; cases h
      | some fs2 =>
        simp only
        rw [read, (write_some hw).1, if_pos rfl, set_same]

/-- A file under a plain name is stored unless there is a directory of that name or a file in place of the directory of the
client. -/
theorem C148_stored (e : Env M) {home : Str} (he : e.dirs = setup home) {fs : FS} (hR : Ready e fs) (cid : Nat) (name : Str)
    (m : M) (data : Bytes) (hn : Simple name) (hd : ∀ b, fs (e.T ++ [cidStr cid]) ≠ some (.file b))
    (hf : fs (e.T ++ [cidStr cid, name]) ≠ some .dir) :
    (store e fs cid (.plain name) m data).2 = true ∧
    (store e fs cid (.plain name) m data).1 (e.T ++ [cidStr cid, name]) = some (.file data) := by
  obtain ⟨h0, hs, h1, h2⟩ := hn
  have hsp : split name = [name] := split_plain hs
  have hv : validateName name = true := by
    simp [validateName, components, hsp, h0, h1, h2, component?]
  let p := (setup home).transferDir ++ cidStr cid ++ ['/'] ++ name
  have hp : getFilePath (setup home) cid (.plain name) = some p := by simp only [getFilePath, hv, if_true]; rfl
  have hpl : resolve e.cwd p = e.T ++ [cidStr cid, name] := by
    rw [plain_place e.cwd hp]
    simp [Env.T, he, names, hsp, h0, h1]
  have hdir : resolve e.cwd ((setup home).transferDir ++ cidStr cid) = e.T ++ [cidStr cid] := by
    rw [plain_dir]; simp [Env.T, he]
  have hnf : namesFile p = true := by
    have : split p = split ((setup home).transferDir ++ cidStr cid) ++ split name := by
      rw [← split_append]; simp [p]
    simp [namesFile, this, hsp, h0, h1, h2]
  obtain ⟨fs1, hc⟩ := createDirAll_isSome (fs := fs) (q := e.T ++ [cidStr cid]) (by
    intro r hr hpre b hb
    rcases List.prefix_concat_iff.mp hpre with rfl | hpre
    · exact hd b hb
    · rw [hR r hr (.inr hpre)] at hb; cases hb)
  obtain ⟨-, c2, c3⟩ := createDirAll_some hc
  have hne : e.T ++ [cidStr cid, name] ≠ [] := by simp
  have hlast : (e.T ++ [cidStr cid, name]).dropLast = e.T ++ [cidStr cid] := by
    rw [show e.T ++ [cidStr cid, name] = (e.T ++ [cidStr cid]) ++ [name] by simp, List.dropLast_concat]
  have hnp : ¬ (e.T ++ [cidStr cid, name] ≠ [] ∧ e.T ++ [cidStr cid, name] <+: e.T ++ [cidStr cid]) := by
    rintro ⟨-, hx⟩
    have := hx.length_le
    simp at this
  have hw : write e.cwd fs1 p [] = some (fs1.set (e.T ++ [cidStr cid, name]) (some (.file []))) := by
    have i1 : isDir fs1 (e.T ++ [cidStr cid]) = true := by
      simp [isDir, c2 _ (by simp) (List.prefix_refl _)]
    have i2 : isDir fs1 (e.T ++ [cidStr cid, name]) = false := by
      simp only [isDir, c3 _ hnp, Bool.or_eq_false_iff, decide_eq_false_iff_not]
      exact ⟨hne, hf⟩
    simp only [write, hpl, hlast, hnf, i1, i2]
    simp [hne]
  have : store e fs cid (.plain name) m data =
      ((fs1.set (e.T ++ [cidStr cid, name]) (some (.file []))).set (e.T ++ [cidStr cid, name]) (some (.file data)), true) := by
    simp only [store, prepare, he, hp, hdir, hc, hw, hpl]
  rw [this]
  exact ⟨rfl, set_same _ _ _⟩

example : Simple "x.tar".toList ∧ Ready srv fs0 ∧ (∀ b, fs0 (srv.T ++ [cidStr 5]) ≠ some (.file b)) ∧
    fs0 (srv.T ++ [cidStr 5, "x.tar".toList]) ≠ some .dir :=
  ⟨by decide, fs0_ready, (fun b h => by rw [srv_T] at h; revert h; simp [fs0]), by rw [srv_T]; simp [fs0]⟩

/-- The hypotheses are met: a peer sends a file of two groups while another file is being received. -/
example :
    let n := run srv h0 [.recv 7 ⟨8, 7, .p2p 8, .header 3 8 (.plain "y".toList) [] 2 true 1⟩, .recv 7 ⟨8, 7, .p2p 8, .ghdr 0 3 1⟩]
    accepts 7 (n.sess 7) ⟨8, 7, .p2p 8, .ghdr 0 0 0⟩ = true ∧ (n.sess 7).files 4 = none ∧
    ((n.sess 7).groups (8, 0, 4) = none ∧ (n.sess 7).tasks.length = 1) ∧
    (run srv n (.recv 7 ⟨8, 7, .p2p 8, .header 4 8 (.plain "x".toList) [] 2 false 1⟩ :: .answer 7 1 true ::
      groupsFrom (fun b => .recv 7 ⟨8, 7, .p2p 8, b⟩) 4 0 [[[1], [2, 3]], [[4]]])).fs (srv.T ++ ["8".toList, "x".toList]) =
      some (.file [1, 2, 3, 4]) := by
  decide +kernel

end Verif.FileStore

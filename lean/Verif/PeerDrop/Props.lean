import Verif.PeerDrop.Tie
import Verif.PeerDrop.Inv
/-
Properties of the direct streams of peers.
-/
namespace Verif.PeerDrop

/-! ### C194: both peers keep the same stream -/

theorem inUse_of {s : Node} {n : Nat} {ps : List Phys} {v : VConn} (hv : s.vconn = some v) {i : Nat} {l : Bool}
    (hr : v.remote = some (n + i, l)) : inUse s n ps = ps[i]? := by
  simp [inUse, hv, hr]

theorem find_one (f : Phys → Bool) (b : Bool) (ps : List Phys) (x : Phys) (hx : x ∈ ps) (hf : f x = b)
    (hu : ∀ y ∈ ps, f y = b → y = x) : b ∈ ps.map f ∧ ps[(ps.map f).idxOf b]? = some x := by
  have hin : b ∈ ps.map f := List.mem_map.mpr ⟨x, hx, hf⟩
  refine ⟨hin, ?_⟩
  have hlt : (ps.map f).idxOf b < (ps.map f).length := List.idxOf_lt_length_of_mem hin
  have hg : (ps.map f)[(ps.map f).idxOf b]'hlt = b := List.getElem_idxOf hlt
  rw [List.length_map] at hlt
  rw [List.getElem_map] at hg
  rw [List.getElem?_eq_getElem hlt, hu _ (List.getElem_mem hlt) hg]

/-- **C194, partial.** Whatever the orders in which the streams between two peers come up at either of them: if the peer with the
higher cid is the client of exactly one of them, both peers end up with that one. -/
theorem C194_same_stream_partial (p q : Nat) (hp : p ≠ 0) (hq : q ≠ 0) (hpq : p ≠ q) (a b : Node) (ha : a.me = p ∧ a.peer = q)
    (hb : b.me = q ∧ b.peer = p) (va vb : VConn) (hva : a.vconn = some va) (hvb : b.vconn = some vb)
    (hra : va.remote = none) (hrb : vb.remote = none) (oa ob : List Phys) (hperm : oa.Perm ob) (x : Phys)
    (hx : x ∈ oa) (hxc : x.aIsClient = decide (q < p)) (hone : ∀ y ∈ oa, y.aIsClient = decide (q < p) → y = x) :
    inUse (run a (openAtA oa)) a.next oa = some x ∧ inUse (run b (openAtB ob)) b.next ob = some x := by
  have sa : shouldListen a.me a.peer = !decide (q < p) := by
    rw [ha.1, ha.2]
    by_cases h : q < p
    · have : ¬ p < q := by omega
      simp [shouldListen, h, this]
    · have : p < q := by omega
      simp [shouldListen, h, this, hp]
  have sb : shouldListen b.me b.peer = decide (q < p) := by
    rw [hb.1, hb.2]; simp [shouldListen, hq]
  constructor
  · obtain ⟨h1, h2⟩ := find_one (fun p => !p.aIsClient) (!decide (q < p)) oa x hx (by simp [hxc])
      (fun y hy h => hone y hy (by simpa using h))
    obtain ⟨v, hv, hr⟩ := run_open_wrong (oa.map fun p => !p.aIsClient) a va hva (by simp [hra]) (by rw [sa]; exact h1)
    rw [List.map_map] at hv
    rw [sa] at hr
    rw [← h2]
    exact inUse_of hv hr
  · obtain ⟨h1, h2⟩ := find_one (fun p => p.aIsClient) (decide (q < p)) ob x (hperm.mem_iff.mp hx) hxc
      (fun y hy h => hone y (hperm.mem_iff.mpr hy) h)
    obtain ⟨v, hv, hr⟩ := run_open_wrong (ob.map fun p => p.aIsClient) b vb hvb (by simp [hrb]) (by rw [sb]; exact h1)
    rw [List.map_map] at hv
    rw [sb] at hr
    rw [← h2]
    exact inUse_of hv hr

/-- Two streams that come up in different orders at the peers 1 and 2. -/
example : inUse (run (run (fresh 1 2 false) [.create 7]) (openAtA [⟨0, true⟩, ⟨1, false⟩])) 0 [⟨0, true⟩, ⟨1, false⟩]
      = some ⟨1, false⟩ ∧
    inUse (run (run (fresh 2 1 false) [.create 7]) (openAtB [⟨1, false⟩, ⟨0, true⟩])) 0 [⟨1, false⟩, ⟨0, true⟩]
      = some ⟨1, false⟩ := by decide

/-- With two streams of the right kind the peers may end up with different ones, and each has told the stream of the
other to stop. -/
theorem C194_counterexample : ∃ oa ob : List Phys, oa.Perm ob ∧ (∀ y ∈ oa, y.aIsClient = decide (2 < 1)) ∧
    inUse (run (run (fresh 1 2 false) [.create 7]) (openAtA oa)) 0 oa = some ⟨0, false⟩ ∧
    inUse (run (run (fresh 2 1 false) [.create 7]) (openAtB ob)) 0 ob = some ⟨1, false⟩ ∧
    (∃ t ∈ (run (run (fresh 1 2 false) [.create 7]) (openAtA oa)).streams, t.n = 1 ∧ t.stopped = true) ∧
    (∃ t ∈ (run (run (fresh 2 1 false) [.create 7]) (openAtB ob)).streams, t.n = 1 ∧ t.stopped = true) :=
  ⟨[⟨0, false⟩, ⟨1, false⟩], [⟨1, false⟩, ⟨0, false⟩], List.Perm.swap _ _ _, by decide, by decide, by decide,
    by decide, by decide⟩

/-- **C194, partial.** On a native build, every stream but the one of the connection has been told to stop, at any time. -/
theorem C194_others_stop_partial (me peer : Nat) (as : List Act) (t : Strm)
    (ht : t ∈ (run (fresh me peer false) as).streams) (hs : t.stopped = false) :
    ∃ v, (run (fresh me peer false) as).vconn = some v ∧ v.remote = some (t.n, t.listener) := by
  have h : Tidy (run (fresh me peer false) as) :=
    run_inv Tidy (fun _ => True) (fun s a _ h => tidy_step s a h) _ as (fun _ _ => trivial)
      ⟨rfl, (by intro v r h; cases h), (by intro t h; cases h)⟩
  rcases (h.2.2 t ht).2 with h | h
  · rw [hs] at h; cases h
  · exact h

/-- In a browser a discarded stream goes on. -/
theorem C194_counterexample_wasm : ∃ t ∈ (run (fresh 2 1 true) [.create 7, .openStream false, .openStream true]).streams,
    t.n = 1 ∧ t.stopped = false ∧
    ∃ v, (run (fresh 2 1 true) [.create 7, .openStream false, .openStream true]).vconn = some v ∧
      v.remote = some (0, false) := ⟨{ n := 1, listener := true, id := 7 }, by decide, rfl, rfl, _, rfl, rfl⟩

/-! ### Which streams there are -/

theorem stop_names (s : Node) (n : Nat) : (stop s n).streams.map (·.n) = s.streams.map (·.n) := by
  unfold stop
  split
  · rfl
  · simp only [List.map_map]
    apply List.map_congr_left
    intro t _
    simp only [Function.comp]
    split <;> rfl

theorem stopOf_names (s : Node) (v : VConn) : (stopOf s v).streams.map (·.n) = s.streams.map (·.n) := by
  unfold stopOf
  split
  · exact stop_names ..
  · rfl

theorem remove_names (s : Node) : (remove s).streams.map (·.n) = s.streams.map (·.n) := by
  unfold remove
  split
  · rfl
  · exact stopOf_names ..

theorem cleanup_names (s : Node) (t : Strm) : (cleanup s t).streams.map (·.n) = s.streams.map (·.n) := by
  unfold cleanup
  split
  · rfl
  · split
    · rw [remove_names, keep_streams]
    · rfl

theorem dropStream_names (s : Node) (n : Nat) :
    (dropStream s n).streams.map (·.n) = (s.streams.map (·.n)).filter (· != n) := by
  simp only [dropStream, List.filter_map]
  rfl

/-- **C194.** A stream goes on until it ends itself or sees that it was told to stop: nothing that happens to another stream or to
the connection takes it away. A stream that ended is gone. -/
theorem C194_goes_on (s : Node) (n : Nat) :
    (∀ a, n ∈ s.streams.map (·.n) → a ≠ .stopStream n → a ≠ .endStream n → n ∈ (step s a).1.streams.map (·.n)) ∧
    n ∉ (step s (.endStream n)).1.streams.map (·.n) := by
  refine ⟨?_, ?_⟩
  · intro a h hs he
    cases a with
    | create id =>
      simp only [step, create]
      split
      · split
        · exact h
        · simpa only [remove_names] using h
      · simpa only [remove_names] using h
    | openStream l =>
      simp only [step, openStream]
      split
      · exact h
      · split
        · simp only [List.map_append]; exact List.mem_append_left _ h
        · simp only [List.map_append, stopOf_names]; exact List.mem_append_left _ h
    | stopStream m =>
      have hm : n ≠ m := fun e => hs (e ▸ rfl)
      simp only [step, stopStream]
      split
      · split
        · rw [dropStream_names]; exact List.mem_filter.mpr ⟨h, by simpa using hm⟩
        · exact h
      · exact h
    | endStream m =>
      have hm : n ≠ m := fun e => he (e ▸ rfl)
      simp only [step, endStream]
      split
      · rw [cleanup_names, dropStream_names]; exact List.mem_filter.mpr ⟨h, by simpa using hm⟩
      · exact h
    | failStream m =>
      have hn : (s.streams.map fun u => if u.n = m then { u with failed := true } else u).map (·.n) = s.streams.map (·.n) := by
        simp only [List.map_map]
        apply List.map_congr_left
        intro t _
        simp only [Function.comp]
        split <;> rfl
      simp only [step, failStream]
      split
      · split
        · exact h
        · split
          · rw [hn]; exact h
          · simp only [tell]; rw [hn]; exact h
      · exact h
    | runTask i =>
      simp only [step, runTask]
      split
      · exact h
      · split
        · exact h
        · split
          · split <;> exact h
          · exact h
    | onServer k =>
      simp only [step, onServer]
      split
      · split
        · exact h
        · simp only [tell]; rw [remove_names, keep_streams]; exact h
      · simp only [tell]; rw [remove_names, keep_streams]; exact h
    | dropChannel id =>
      simp only [step, dropChannel]
      split
      · split <;> exact h
      · exact h
    | runCmd i =>
      simp only [step, runCmd]
      split
      · exact h
      · split
        · split <;> exact h
        · exact h
    | rekey o =>
      simp only [step, rekey]
      split <;> exact h
    | endSession =>
      simp only [step, endSession]
      rw [remove_names]; exact h
  · simp only [step, endStream]
    split
    · rw [cleanup_names, dropStream_names]; simp
    · rename_i h
      simp only [findStream, List.find?_eq_none] at h
      intro hm
      obtain ⟨t, ht, rfl⟩ := List.mem_map.mp hm
      exact h t ht (by simp)

example : (step (run (fresh 1 2 false) [.create 1, .openStream false, .openStream true]) (.stopStream 0)).1.streams.map (·.n)
    = [1] := by decide

/-! ### C195: ratchets for packets of the peer -/

/-- **C195.** A packet of the peer is tried with a ratchet of the newest connection, of the version that it names. -/
theorem C195_newest (me peer : Nat) (wasm : Bool) (as : List Act) (version : Nat) (r : Nat × Nat)
    (h : ratchetFor (run (fresh me peer wasm) as) version = some r) :
    (run (fresh me peer wasm) as).made.head? = some r.1 ∧ r.2 = version := by
  obtain ⟨h1, h2⟩ := newest_run me peer wasm as
  unfold ratchetFor at h
  split at h
  · rename_i v hv
    split at h
    · cases h; exact ⟨(h1 v hv).1, rfl⟩
    · cases h
  · split at h
    · rename_i r' hr
      split at h
      · rename_i he; cases h; exact ⟨h2 _ hr, he⟩
      · cases h
    · cases h

/-- The connection is gone and its ratchet is kept. -/
def Kept (id ver : Nat) (s : Node) : Prop := s.vconn = none ∧ s.stale = some (id, ver)

theorem kept_step (id ver : Nat) (s : Node) (a : Act) (ha : ∀ i, a ≠ .create i) (h : Kept id ver s) :
    Kept id ver (step s a).1 := by
  obtain ⟨h1, h2⟩ := h
  have hk : ∀ u : Node, u.vconn = none → keep u = u := by intro u hu; unfold keep; rw [hu]
  have e := eff_step s a
  generalize (step s a).1 = s' at *
  generalize (step s a).2 = o at *
  cases e with
  | quiet _ _ hv hst hm ht hc htd hmd ha hb => exact ⟨hv.trans h1, hst.trans h2⟩
  | refused id v hv hact _ he => exact absurd rfl (ha _)
  | made id hin _ he => exact absurd rfl (ha _)
  | opened l v hv _ v' hv' hid hver hold hact hnot hst hm ht hc htd hmd => rw [h1] at hv; cases hv
  | ended n v hv t hf hid _ he => rw [h1] at hv; cases hv
  | failed n hmark _ hv hst hm ht hc htd hmd => exact ⟨hv.trans h1, hst.trans h2⟩
  | skipped j id hj hmark _ he => subst he; exact ⟨h1, h2⟩
  | late j id hj hmark v hv hne _ he => subst he; exact ⟨h1, h2⟩
  | notified j id hj hmark hv _ he => subst he; exact ⟨h1, h2⟩
  | server k hk' _ he => subst he; exact ⟨by simp, by rw [tell_stale, remove_stale, hk s h1]; exact h2⟩
  | dropped id _ hst hm ht hc htd hmd hs hw hv =>
    rcases hv with ⟨hv, _⟩ | ⟨v, hv, _, _⟩
    · exact ⟨hv.trans h1, hst.trans h2⟩
    · rw [h1] at hv; cases hv
  | cmdLate j id hj v hv hne _ he => subst he; exact ⟨h1, h2⟩
  | cmdSent j id hj v hv hne _ he => subst he; exact ⟨h1, h2⟩
  | cmdNone j id hj hv _ he => subst he; exact ⟨h1, h2⟩
  | rekeyed o v hv _ he => rw [h1] at hv; cases hv
  | gone _ he => subst he; exact ⟨by simp, by rw [remove_stale]; exact h2⟩

/-- **C195, partial.** When the connection goes because its stream ended or because the server says so, packets under
the latest ratchet can be read until a new connection is made.  Missing: packets under older ratchets. -/
theorem C195_in_flight_partial (s : Node) (v : VConn) (hv : s.vconn = some v) (a : Act)
    (ha : (∃ n, a = .endStream n) ∨ ∃ k, a = .onServer k) (hgone : (step s a).1.vconn = none) (as : List Act)
    (has : ∀ x ∈ as, ∀ i, x ≠ .create i) :
    ratchetFor (run (step s a).1 as) v.ver = some (v.id, v.ver) := by
  have h0 : Kept v.id v.ver (step s a).1 := by
    have e := eff_step s a
    generalize (step s a).1 = s' at *
    generalize (step s a).2 = o at *
    cases e with
    | quiet _ _ hv' hst hm ht hc htd hmd ha hb => rw [hv', hv] at hgone; cases hgone
    | ended n v' hv' t hf hid _ he =>
      subst he
      refine ⟨by simp, ?_⟩
      rw [remove_stale]
      have : (dropStream s n).vconn = some v := hv
      simp [keep, this]
    | server k hk _ he =>
      subst he
      refine ⟨by simp, ?_⟩
      rw [tell_stale, remove_stale]
      simp [keep, hv]
    | _ => rcases ha with ⟨n, h⟩ | ⟨k, h⟩ <;> cases h
  have h := run_inv (Kept v.id v.ver) (fun x => ∀ i, x ≠ .create i)
    (fun s a ha h => kept_step _ _ s a ha h) _ as has h0
  simp [ratchetFor, h.1, h.2]

example : ratchetFor (run (fresh 1 2 false) [.create 7, .rekey 0, .openStream true, .endStream 0]) 1 = some (7, 1) := by
  decide

/-- A packet under the ratchet before the latest could be read while the connection was there, and not afterwards. -/
theorem C195_counterexample : ∃ as : List Act,
    ratchetFor (run (fresh 1 2 false) as) 0 = some (7, 0) ∧
    ratchetFor (run (fresh 1 2 false) (as ++ [.endStream 0])) 0 = none :=
  ⟨[.create 7, .rekey 0, .openStream true], by decide, by decide⟩

/-! ### C196: streams of older connections do no harm -/

/-- The connection is there, and no stream of its own. -/
def Safe (id : Nat) (s : Node) : Prop :=
  s.wasm = false ∧ (∃ v, s.vconn = some v ∧ v.id = id ∧ v.active = true) ∧ ∀ i ∈ s.streams.map (·.id), i ≠ id

/-- What may end the connection `id`, or give it a stream that may. -/
def Spares (id : Nat) : Act → Prop
  | .openStream _ => False
  | .onServer none => False
  | .onServer (some i) => i ≠ id
  | .dropChannel i => i ≠ id
  | .endSession => False
  | _ => True

theorem findStream_id {s : Node} {n : Nat} {t : Strm} (h : findStream s n = some t) :
    t.id ∈ s.streams.map (·.id) :=
  List.mem_map.mpr ⟨t, List.mem_of_find?_eq_some h, rfl⟩

theorem safe_step (id : Nat) (s : Node) (a : Act) (ha : Spares id a) (h : Safe id s) : Safe id (step s a).1 := by
  obtain ⟨hw, ⟨v, hv, hid, hact⟩, hs⟩ := h
  refine ⟨by rw [step_wasm]; exact hw, ?_, fun i hi => ?_⟩
  · have e := eff_step s a
    generalize (step s a).1 = s' at *
    generalize (step s a).2 = o at *
    cases e with
    | quiet _ _ hv' hst hm ht hc htd hmd ha hb => exact ⟨v, hv'.trans hv, hid, hact⟩
    | refused id' v' hv' hact' _ he => subst he; exact ⟨v, hv, hid, hact⟩
    | made id' hin _ he => rw [hin v hv] at hact; cases hact
    | opened l _ _ _ _ _ _ _ _ _ _ _ _ _ _ _ _ => exact absurd ha (by simp [Spares])
    | ended n v' hv' t hf hid' _ he =>
      rw [hv] at hv'; cases hv'
      rcases hid' with h | h
      · rw [hw] at h; cases h
      · exact absurd (h.symm.trans hid) (hs _ (findStream_id hf))
    | failed n hmark _ hv' hst hm ht hc htd hmd => exact ⟨v, hv'.trans hv, hid, hact⟩
    | skipped j id hj hmark _ he => subst he; exact ⟨v, hv, hid, hact⟩
    | late j id hj hmark v' hv' hne _ he => subst he; exact ⟨v, hv, hid, hact⟩
    | notified j id hj hmark hv' _ he => subst he; exact ⟨v, hv, hid, hact⟩
    | server k hk _ he =>
      cases k with
      | none => exact absurd ha (by simp [Spares])
      | some i =>
        have := hk v i hv rfl
        exact absurd (this.symm.trans hid) ha
    | dropped id' _ hst hm ht hc htd hmd hs hw hv' =>
      rcases hv' with ⟨hv', _⟩ | ⟨v', hv', he, _⟩
      · exact ⟨v, hv'.trans hv, hid, hact⟩
      · rw [hv] at hv'; cases hv'
        exact absurd (he.symm.trans hid) ha
    | cmdLate j id hj v' hv' hne _ he => subst he; exact ⟨v, hv, hid, hact⟩
    | cmdSent j id hj v' hv' hne _ he => subst he; exact ⟨v, hv, hid, hact⟩
    | cmdNone j id hj hv' _ he => subst he; exact ⟨v, hv, hid, hact⟩
    | rekeyed o v' hv' _ he => subst he; rw [hv] at hv'; cases hv'; exact ⟨_, rfl, hid, hact⟩
    | gone _ he => exact absurd ha (by simp [Spares])
  · rcases step_ids s a i hi with h | ⟨⟨l, rfl⟩, _⟩
    · exact hs i h
    · exact absurd ha (by simp [Spares])

/-- **C196, partial.** On a native build, streams, tasks, commands and signals of older connections do not end a new
one, nor do further attempts to connect: it stays until a stream of its own comes up, its channel is dropped, the
session ends, or the server sends a signal without a token or with its id.  Missing: browsers, and the second stream of
the same connection. -/
theorem C196_older_partial (me peer : Nat) (before : List Act) (id : Nat)
    (hnew : id ∉ (run (fresh me peer false) before).made)
    (hfree : ∀ v, (run (fresh me peer false) before).vconn = some v → v.active = false)
    (after : List Act) (hafter : ∀ a ∈ after, Spares id a) :
    Has (run (fresh me peer false) (before ++ .create id :: after)) id := by
  rw [run_append]
  generalize hs : run (fresh me peer false) before = s at *
  have hk : Known s := hs ▸ known_run me peer false before
  have hw : s.wasm = false := by
    rw [← hs]
    exact run_inv (fun s => s.wasm = false) (fun _ => True) (fun s a _ h => (step_wasm s a).trans h) _ before
      (fun _ _ => trivial) rfl
  have h0 : Safe id (step s (.create id)).1 := by
    refine ⟨by rw [step_wasm]; exact hw, ?_, fun i hi => ?_⟩
    · have e := eff_step s (.create id)
      generalize (step s (.create id)).1 = s' at *
      generalize (step s (.create id)).2 = o at *
      cases e with
      | quiet _ _ hv hst hm ht hc htd hmd ha hb => exact absurd rfl (hb id)
      | refused _ v hv hact _ he => rw [hfree v hv] at hact; cases hact
      | made _ hin _ he => subst he; exact ⟨_, rfl, rfl, rfl⟩
    · rcases step_ids s _ i hi with h | ⟨⟨l, h⟩, _⟩
      · exact fun e => hnew (e ▸ hk.2.1 i h)
      · cases h
  have h := run_inv (Safe id) (Spares id) (fun s a ha h => safe_step id s a ha h) _ after hafter h0
  obtain ⟨v, hv, e, _⟩ := h.2.1
  exact ⟨v, hv, e⟩

example : Has (run (fresh 1 2 false) ([.create 1, .openStream true, .onServer none] ++ .create 2 ::
    [.endStream 0, .runTask 0, .onServer (some 1), .create 3, .runCmd 0])) 2 :=
  C196_older_partial 1 2 _ 2 (by decide) (by decide) _ (by simp [Spares])

/-- In a browser, the end of a stream of the connection before takes the new connection away. -/
theorem C196_counterexample_wasm : ∃ s : Node, s = run (fresh 1 2 true)
      [.create 1, .openStream true, .onServer none, .create 2, .openStream true] ∧
    Has s 2 ∧ (∃ t ∈ s.streams, t.n = 0 ∧ t.id = 1) ∧ (∃ t ∈ s.streams, t.n = 1 ∧ t.id = 2) ∧
    ¬ Has (step s (.endStream 0)).1 2 := ⟨_, rfl, by decide, by decide, by decide, by decide⟩

/-- A stream that was replaced and told to stop, but whose reader ends first, takes the connection away from the stream
that replaced it. -/
theorem C196_counterexample_twin : ∃ s : Node, s = run (fresh 1 2 false) [.create 1, .openStream false, .openStream true] ∧
    (∃ v, s.vconn = some v ∧ v.remote = some (1, true)) ∧ (∃ t ∈ s.streams, t.n = 0 ∧ t.stopped = true) ∧
    (∃ t ∈ s.streams, t.n = 1 ∧ t.stopped = false) ∧ (step s (.endStream 0)).1.vconn = none :=
  ⟨_, rfl, ⟨_, rfl, rfl⟩, by decide, by decide, by decide⟩

/-! ### C197: the kernel is told once -/

theorem gated_step (s : Node) (a : Act) (ha : ∀ l, a ≠ .openStream l) :
    (step s a).1.told.countP gated + (if (step s a).1.mark then 0 else 1)
      ≤ s.told.countP gated + (if s.mark then 0 else 1) := by
  have e := eff_step s a
  generalize (step s a).1 = s' at *
  generalize (step s a).2 = o at *
  cases e with
  | quiet _ _ hv hst hm ht hc htd hmd ha hb => rw [htd, hm]; exact Nat.le_refl _
  | opened l _ _ _ _ _ _ _ _ _ _ _ _ _ _ _ _ => exact absurd rfl (ha l)
  | failed n hmark _ hv hst hm ht hc htd hmd => rw [htd, hm, hmark, List.countP_append]; simp [gated]
  | late j id hj hmark v hv hne _ he => subst he; simp [hmark]
  | notified j id hj hmark hv _ he => subst he; simp [hmark, gated, List.countP_append]
  | dropped id _ hst hm ht hc htd hmd hs hw hv => rw [htd, hm]; exact Nat.le_refl _
  | cmdNone j id hj hv _ he => subst he; simp [gated, List.countP_append]; exact Nat.le_refl _
  | _ => subst_vars; simp [gated, dropStream, List.countP_append]

/-- **C197, partial.** From the time a stream comes up until the next one does, the notifier and the error handler
together tell the kernel at most once.  Missing: signals of the server and commands, which are not counted by the
tracker. -/
theorem C197_gated_partial (s : Node) (as : List Act) (has : ∀ a ∈ as, ∀ l, a ≠ .openStream l) :
    (run s as).told.countP gated ≤ s.told.countP gated + 1 := by
  have key : (run s as).told.countP gated + (if (run s as).mark then 0 else 1)
      ≤ s.told.countP gated + (if s.mark then 0 else 1) := by
    induction as generalizing s with
    | nil => exact Nat.le_refl _
    | cons a as ih =>
      exact Nat.le_trans (ih (step s a).1 fun b hb => has b (List.mem_cons_of_mem _ hb))
        (gated_step s a (has a List.mem_cons_self))
  split at key <;> split at key <;> omega

/-- The kernel is told twice or more of one connection that ended once: the channel is dropped, the answer of the
server removes the connection, the notifier speaks, and the server answers the signal of the notifier. -/
theorem C197_counterexample :
    (run (fresh 1 2 false) [.create 1, .openStream true, .dropChannel 1, .runCmd 0, .onServer none, .runTask 0,
      .onServer none]).told = [.server, .notified 1, .server] ∧
    outs (fresh 1 2 false) [.create 1, .openStream true, .dropChannel 1, .runCmd 0, .onServer none, .runTask 0,
      .onServer none] = [1, 1] := by decide

/-! ### C198, C203: the kernel and the server learn of the end -/

/-- Somebody has been told, or will be. -/
def Owed (id : Nat) (n : Nat) (s : Node) : Prop :=
  n < s.told.length ∨
  (n = s.told.length ∧ s.mark = false ∧
    ((∃ v, s.vconn = some v ∧ v.id = id ∧ v.notifier = true ∧ s.tasks = []) ∨ (s.vconn = none ∧ s.tasks = [id])))

theorem told_mono (s : Node) (a : Act) : s.told.length ≤ (step s a).1.told.length := by
  have e := eff_step s a
  generalize (step s a).1 = s' at *
  generalize (step s a).2 = o at *
  cases e with
  | quiet _ _ hv hst hm ht hc htd hmd ha hb => rw [htd]; exact Nat.le_refl _
  | opened l v hv _ v' hv' hid hver hold hact hnot hst hm ht hc htd hmd => rw [htd]; exact Nat.le_refl _
  | failed n hmark _ hv hst hm ht hc htd hmd => rw [htd]; simp
  | dropped id _ hst hm ht hc htd hmd hs hw hv => rw [htd]; exact Nat.le_refl _
  | _ => subst_vars; simp [dropStream]

theorem owed_step (id n : Nat) (s : Node) (a : Act) (ha : ∀ i, a ≠ .create i) (h : Owed id n s) :
    Owed id n (step s a).1 := by
  rcases h with h | ⟨hn, hm0, h⟩
  · exact Or.inl (Nat.lt_of_lt_of_le h (told_mono s a))
  have hrem : ∀ u : Node, u.vconn = s.vconn → u.tasks = s.tasks →
      (remove u).vconn = none ∧ (remove u).tasks = [id] := by
    intro u hu1 hu2
    refine ⟨by simp, ?_⟩
    rcases h with ⟨v, hv, e, hnot, ht⟩ | ⟨hv, ht⟩
    · rw [remove_tasks_some (hu1.trans hv), hnot, hu2, ht, e]; rfl
    · rw [remove_tasks_none (hu1.trans hv), hu2, ht]
  have e := eff_step s a
  generalize (step s a).1 = s' at *
  generalize (step s a).2 = o at *
  cases e with
  | quiet _ _ hv hst hm ht hc htd hmd ha hb =>
    refine Or.inr ⟨by rw [htd]; exact hn, by rw [hm]; exact hm0, ?_⟩
    rw [hv, ht]; exact h
  | refused i v hv hact _ he => exact absurd rfl (ha i)
  | made i hin _ he => exact absurd rfl (ha i)
  | opened l v hv _ v' hv' hid hver hold hact hnot hst hm ht hc htd hmd =>
    refine Or.inr ⟨by rw [htd]; exact hn, by rw [hm, hm0]; simp, Or.inl ⟨v', hv', ?_⟩⟩
    rcases h with ⟨w, hw, e, hwn, hwt⟩ | ⟨hw, _⟩
    · rw [hv] at hw; cases hw
      exact ⟨hid.trans e, by rcases hnot with h | h <;> simp [h, hwn], ht.trans hwt⟩
    · rw [hv] at hw; cases hw
  | ended k v hv t hf hid _ he =>
    subst he
    refine Or.inr ⟨by simpa [dropStream] using hn, by simpa [dropStream] using hm0, Or.inr ?_⟩
    exact hrem _ (by simp [dropStream]) (by simp [dropStream])
  | failed k hmark _ hv hst hm ht hc htd hmd => left; rw [htd]; simp; omega
  | skipped j i hj hmark _ he => rw [hm0] at hmark; cases hmark
  | late j i hj hmark v hv hne _ he =>
    rcases h with ⟨w, hw, _, _, hwt⟩ | ⟨hw, _⟩
    · rw [hwt] at hj; simp at hj
    · rw [hv] at hw; cases hw
  | notified j i hj hmark hv _ he => subst he; left; simp; omega
  | server k hk _ he => subst he; left; simp; omega
  | dropped i _ hst hm ht hc htd hmd hs hw hv =>
    refine Or.inr ⟨by rw [htd]; exact hn, by rw [hm]; exact hm0, ?_⟩
    rw [ht]
    rcases hv with ⟨hv, _⟩ | ⟨v, hv, _, hv'⟩
    · rw [hv]; exact h
    · rcases h with ⟨w, hw, e, hwn, hwt⟩ | ⟨hw, _⟩
      · rw [hv] at hw; cases hw
        exact Or.inl ⟨_, hv', e, hwn, hwt⟩
      · rw [hv] at hw; cases hw
  | cmdLate j i hj v hv hne _ he => subst he; exact Or.inr ⟨hn, hm0, h⟩
  | cmdSent j i hj v hv hne _ he => subst he; exact Or.inr ⟨hn, hm0, h⟩
  | cmdNone j i hj hv _ he => subst he; left; simp; omega
  | rekeyed o v hv _ he =>
    subst he
    refine Or.inr ⟨hn, hm0, ?_⟩
    rcases h with ⟨w, hw, e, hwn, hwt⟩ | ⟨hw, _⟩
    · rw [hv] at hw; cases hw
      exact Or.inl ⟨_, rfl, e, hwn, hwt⟩
    · rw [hv] at hw; cases hw
  | gone _ he =>
    subst he
    refine Or.inr ⟨by simpa using hn, by simpa using hm0, Or.inr ?_⟩
    exact hrem _ rfl rfl

/-- **C198, partial.** A connection that has a stream of a native build, when no signal of an older connection waits any
more: however it ends, once all tasks have run the kernel has been told.  Missing: browsers, relayed connections, and
tasks of older connections that run late. -/
theorem C198_told_partial (s : Node) (v : VConn) (hv : s.vconn = some v) (hw : s.wasm = false) (ht : s.tasks = [])
    (hr : v.remote = none) (l : Bool) (as : List Act) (has : ∀ a ∈ as, ∀ i, a ≠ .create i)
    (hend : (run (step s (.openStream l)).1 as).vconn = none) (hdone : (run (step s (.openStream l)).1 as).tasks = []) :
    s.told.length < (run (step s (.openStream l)).1 as).told.length := by
  have h0 : Owed v.id s.told.length (step s (.openStream l)).1 := by
    refine Or.inr ?_
    simp only [step, openStream, hv, hr, Option.map_none, choose, hw]
    refine ⟨by simp, rfl, Or.inl ⟨_, rfl, rfl, by simp, by simpa using ht⟩⟩
  have h := run_inv (Owed v.id s.told.length) (fun a => ∀ i, a ≠ .create i)
    (fun s a ha h => owed_step _ _ s a ha h) _ as has h0
  rcases h with h | ⟨_, _, ⟨v', hv', _⟩ | ⟨_, ht'⟩⟩
  · exact h
  · rw [hend] at hv'; cases hv'
  · rw [hdone] at ht'; cases ht'

example : (run (fresh 1 2 false) [.create 1, .openStream true, .endStream 0, .runTask 0]).told = [.notified 1] := by
  decide

/-- A task of an older connection runs after the stream of the new one came up: it finds the new connection and says
nothing, but the tracker has the mark.  The end of the new connection is then not told to anybody. -/
theorem C198_counterexample : ∃ as bs : List Act,
    Has (run (fresh 1 2 false) as) 2 ∧ (run (fresh 1 2 false) as).told = [.server] ∧ bs = [.runTask 0, .endStream 1, .runTask 0] ∧
    (run (fresh 1 2 false) (as ++ bs)).vconn = none ∧ (run (fresh 1 2 false) (as ++ bs)).tasks = [] ∧
    (run (fresh 1 2 false) (as ++ bs)).streams.all (·.stopped) = true ∧
    (run (fresh 1 2 false) (as ++ bs)).told = [.server] ∧ outs (fresh 1 2 false) (as ++ bs) = [] :=
  ⟨[.create 1, .openStream true, .onServer none, .create 2, .openStream true], [.runTask 0, .endStream 1, .runTask 0],
    by decide, by decide, rfl, by decide, by decide, by decide, by decide, by decide⟩

/-- In a browser the mark is never taken back: the second stream that fails goes unreported. -/
theorem C198_counterexample_wasm :
    (run (fresh 1 2 true) [.create 1, .openStream true, .failStream 0, .endStream 0,
      .create 2, .openStream true, .failStream 1, .endStream 1]).told = [.failed 0] ∧
    (run (fresh 1 2 true) [.create 1, .openStream true, .failStream 0, .endStream 0,
      .create 2, .openStream true, .failStream 1, .endStream 1]).vconn = none := by decide

/-- The signal of the notifier has been sent to the server, or will be. -/
def Due (id : Nat) (s : Node) (sent : Bool) : Prop :=
  sent = true ∨ (s.mark = false ∧
    ((∃ v, s.vconn = some v ∧ v.id = id ∧ v.notifier = true ∧ s.tasks = []) ∨ (s.vconn = none ∧ s.tasks = [id])))

theorem due_step (id : Nat) (s : Node) (a : Act) (ha : ∀ i, a ≠ .create i) (hf : ∀ n, a ≠ .failStream n)
    (h : Due id s false) : Due id (step s a).1 (decide (id ∈ (step s a).2.toList)) := by
  rcases h with h | ⟨hm0, h⟩
  · cases h
  have hrem : ∀ u : Node, u.vconn = s.vconn → u.tasks = s.tasks →
      (remove u).vconn = none ∧ (remove u).tasks = [id] := by
    intro u hu1 hu2
    refine ⟨by simp, ?_⟩
    rcases h with ⟨v, hv, e, hnot, ht⟩ | ⟨hv, ht⟩
    · rw [remove_tasks_some (hu1.trans hv), hnot, hu2, ht, e]; rfl
    · rw [remove_tasks_none (hu1.trans hv), hu2, ht]
  have e := eff_step s a
  generalize (step s a).1 = s' at *
  generalize (step s a).2 = o at *
  cases e with
  | quiet _ _ hv hst hm ht hc htd hmd ha hb =>
    refine Or.inr ⟨by rw [hm]; exact hm0, ?_⟩
    rw [hv, ht]; exact h
  | refused i v hv hact _ he => exact absurd rfl (ha i)
  | made i hin _ he => exact absurd rfl (ha i)
  | opened l v hv _ v' hv' hid hver hold hact hnot hst hm ht hc htd hmd =>
    refine Or.inr ⟨by rw [hm, hm0]; simp, Or.inl ⟨v', hv', ?_⟩⟩
    rcases h with ⟨w, hw, e, hwn, hwt⟩ | ⟨hw, _⟩
    · rw [hv] at hw; cases hw
      exact ⟨hid.trans e, by rcases hnot with h | h <;> simp [h, hwn], ht.trans hwt⟩
    · rw [hv] at hw; cases hw
  | ended k v hv t hf hid _ he =>
    subst he
    exact Or.inr ⟨by simpa [dropStream] using hm0, Or.inr (hrem _ (by simp [dropStream]) (by simp [dropStream]))⟩
  | failed k hmark _ hv hst hm ht hc htd hmd => exact absurd rfl (hf k)
  | skipped j i hj hmark _ he => rw [hm0] at hmark; cases hmark
  | late j i hj hmark v hv hne _ he =>
    rcases h with ⟨w, hw, _, _, hwt⟩ | ⟨hw, _⟩
    · rw [hwt] at hj; simp at hj
    · rw [hv] at hw; cases hw
  | notified j i hj hmark hv _ he =>
    left
    rcases h with ⟨w, hw, _, _, hwt⟩ | ⟨hw, ht⟩
    · rw [hwt] at hj; simp at hj
    · rw [ht] at hj
      have : i = id := by
        have := List.mem_of_getElem? hj
        simpa using this
      simp [this]
  | server k hk _ he =>
    subst he
    exact Or.inr ⟨by simpa using hm0, Or.inr (hrem (keep s) (by simp) (by simp))⟩
  | dropped i _ hst hm ht hc htd hmd hs hw hv =>
    refine Or.inr ⟨by rw [hm]; exact hm0, ?_⟩
    rw [ht]
    rcases hv with ⟨hv, _⟩ | ⟨v, hv, _, hv'⟩
    · rw [hv]; exact h
    · rcases h with ⟨w, hw, e, hwn, hwt⟩ | ⟨hw, _⟩
      · rw [hv] at hw; cases hw
        exact Or.inl ⟨_, hv', e, hwn, hwt⟩
      · rw [hv] at hw; cases hw
  | cmdLate j i hj v hv hne _ he => subst he; exact Or.inr ⟨hm0, h⟩
  | cmdSent j i hj v hv hne _ he =>
    subst he
    rcases h with ⟨w, hw, e, _, _⟩ | ⟨hw, _⟩
    · rw [hv] at hw; cases hw
      left; simp [← e, hne]
    · rw [hv] at hw; cases hw
  | cmdNone j i hj hv _ he => subst he; exact Or.inr ⟨hm0, h⟩
  | rekeyed o v hv _ he =>
    subst he
    refine Or.inr ⟨hm0, ?_⟩
    rcases h with ⟨w, hw, e, hwn, hwt⟩ | ⟨hw, _⟩
    · rw [hv] at hw; cases hw
      exact Or.inl ⟨_, rfl, e, hwn, hwt⟩
    · rw [hv] at hw; cases hw
  | gone _ he =>
    subst he
    exact Or.inr ⟨by simpa using hm0, Or.inr (hrem _ rfl rfl)⟩

/-- **C203, partial.** Under the same conditions, if no reader ends with an error, the server has been told as well.
Missing: streams that fail. -/
theorem C203_server_partial (s : Node) (v : VConn) (hv : s.vconn = some v) (hw : s.wasm = false) (ht : s.tasks = [])
    (hr : v.remote = none) (l : Bool) (as : List Act)
    (has : ∀ a ∈ as, (∀ i, a ≠ .create i) ∧ ∀ n, a ≠ .failStream n)
    (hend : (run (step s (.openStream l)).1 as).vconn = none) (hdone : (run (step s (.openStream l)).1 as).tasks = []) :
    v.id ∈ outs (step s (.openStream l)).1 as := by
  have h0 : Due v.id (step s (.openStream l)).1 false := by
    refine Or.inr ?_
    simp only [step, openStream, hv, hr, Option.map_none, choose, hw]
    exact ⟨rfl, Or.inl ⟨_, rfl, rfl, by simp, by simpa using ht⟩⟩
  generalize (step s (.openStream l)).1 = u at *
  induction as generalizing u with
  | nil =>
    rcases h0 with h | ⟨_, ⟨v', hv', _⟩ | ⟨_, ht'⟩⟩
    · cases h
    · exact absurd (hend.symm.trans hv') (by simp)
    · exact absurd (hdone.symm.trans ht') (by simp)
  | cons a as ih =>
    obtain ⟨h1, h2⟩ := has a List.mem_cons_self
    have hs := due_step v.id u a h1 h2 h0
    show v.id ∈ (step u a).2.toList ++ outs (step u a).1 as
    by_cases hin : v.id ∈ (step u a).2.toList
    · exact List.mem_append_left _ hin
    · rw [decide_eq_false hin] at hs
      exact List.mem_append_right _
        (ih (fun b hb => has b (List.mem_cons_of_mem _ hb)) (step u a).1 hend hdone hs)

example : outs (fresh 1 2 false) [.create 1, .openStream true, .endStream 0, .runTask 0] = [1] := by decide

/-- The stream fails: the error handler tells the kernel and takes the mark, so the task says nothing, and the server
is not told. -/
theorem C203_counterexample :
    outs (fresh 1 2 false) [.create 1, .openStream true, .failStream 0, .endStream 0, .runTask 0] = [] ∧
    (run (fresh 1 2 false) [.create 1, .openStream true, .failStream 0, .endStream 0, .runTask 0]).vconn = none ∧
    (run (fresh 1 2 false) [.create 1, .openStream true, .failStream 0, .endStream 0, .runTask 0]).tasks = [] := by decide

/-! ### C199: what the notifier says is true -/

/-- Signals that wait are of connections that are gone, one for each. -/
def Gone (s : Node) : Prop :=
  s.made.Nodup ∧ (∀ v, s.vconn = some v → v.id ∈ s.made ∧ v.id ∉ s.tasks ∧ Ev.notified v.id ∉ s.told) ∧
  s.tasks.Nodup ∧ (∀ i ∈ s.tasks, i ∈ s.made ∧ Ev.notified i ∉ s.told) ∧
  (∀ i, Ev.notified i ∈ s.told → i ∈ s.made ∧ s.told.count (.notified i) = 1)

theorem gone_remove {s : Node} (h : Gone s) : Gone (remove s) := by
  obtain ⟨h1, h2, h3, h4, h5⟩ := h
  refine ⟨by simpa using h1, by intro v hv; simp at hv, ?_, ?_, by simpa using h5⟩
  · cases hv : s.vconn with
    | none => rw [remove_tasks_none hv]; exact h3
    | some v =>
      rw [remove_tasks_some hv]
      split
      · rw [List.nodup_append]
        refine ⟨h3, by simp, fun a ha b hb => ?_⟩
        rw [List.mem_singleton] at hb
        rintro rfl
        exact (h2 v hv).2.1 (hb ▸ ha)
      · exact h3
  · intro i hi
    rw [remove_made, remove_told]
    rcases remove_tasks_mem hi with h | ⟨v, hv, e⟩
    · exact h4 i h
    · rw [← e]; exact ⟨(h2 v hv).1, (h2 v hv).2.2⟩

theorem gone_same {s s' : Node} (h : Gone s) (hv : ∀ v, s'.vconn = some v → ∃ w, s.vconn = some w ∧ v.id = w.id)
    (ht : s'.tasks = s.tasks) (hm : s'.made = s.made) (htd : s'.told = s.told) : Gone s' := by
  obtain ⟨h1, h2, h3, h4, h5⟩ := h
  refine ⟨hm ▸ h1, fun v hv' => ?_, ht ▸ h3, by rw [ht, hm, htd]; exact h4, by rw [htd, hm]; exact h5⟩
  obtain ⟨w, hw, e⟩ := hv v hv'
  rw [e, ht, hm, htd]
  exact h2 w hw

theorem gone_tell {s : Node} (h : Gone s) (e : Ev) (he : ∀ i, e ≠ .notified i) : Gone (tell s e) := by
  obtain ⟨h1, h2, h3, h4, h5⟩ := h
  have hne : ∀ i, ¬ Ev.notified i = e := fun i h => he i h.symm
  refine ⟨h1, fun v hv => ?_, h3, fun i hi => ?_, fun i hi => ?_⟩
  · obtain ⟨a, b, c⟩ := h2 v hv
    exact ⟨a, b, by simp [c, hne]⟩
  · obtain ⟨a, b⟩ := h4 i hi
    exact ⟨a, by simp [b, hne]⟩
  · simp only [tell_told, List.mem_append, List.mem_singleton, hne, or_false] at hi
    obtain ⟨a, b⟩ := h5 i hi
    refine ⟨a, ?_⟩
    rw [tell_told, List.count_append, b]
    simp [he]

theorem gone_erase {s : Node} (h : Gone s) (j : Nat) (mark : Bool) :
    Gone { s with tasks := s.tasks.eraseIdx j, mark := mark } := by
  obtain ⟨h1, h2, h3, h4, h5⟩ := h
  refine ⟨h1, fun v hv => ?_, h3.sublist (List.eraseIdx_sublist _ _), fun i hi => h4 i (List.mem_of_mem_eraseIdx hi), h5⟩
  obtain ⟨a, b, c⟩ := h2 v hv
  exact ⟨a, fun h => b (List.mem_of_mem_eraseIdx h), c⟩

theorem gone_step (s : Node) (a : Act) (h : Gone s) (hn : (step s a).1.made.Nodup) : Gone (step s a).1 := by
  have e := eff_step s a
  generalize (step s a).1 = s' at *
  generalize (step s a).2 = o at *
  cases e with
  | quiet _ _ hv hst hm ht hc htd hmd ha hb => exact gone_same h (fun v hv' => ⟨v, hv ▸ hv', rfl⟩) ht hmd htd
  | refused i v hv hact _ he => subst he; exact h
  | made i hin _ he =>
    subst he
    have hr := gone_remove h
    have hi : i ∉ s.made := (List.nodup_cons.mp hn).1
    refine ⟨hn, fun v hv => ?_, hr.2.2.1, fun k hk => ?_, fun k hk => ?_⟩
    · cases hv
      refine ⟨List.mem_cons_self, fun h => hi ?_, fun h => hi ?_⟩
      · have := (hr.2.2.2.1 i h).1; rwa [remove_made] at this
      · have := (hr.2.2.2.2 i h).1; rwa [remove_made] at this
    · obtain ⟨a, b⟩ := hr.2.2.2.1 k hk
      rw [remove_made] at a
      exact ⟨List.mem_cons_of_mem _ a, b⟩
    · obtain ⟨a, b⟩ := hr.2.2.2.2 k hk
      rw [remove_made] at a
      exact ⟨List.mem_cons_of_mem _ a, b⟩
  | opened l v hv _ v' hv' hid hver hold hact hnot hst hm ht hc htd hmd =>
    exact gone_same h (fun w hw => ⟨v, hv, by rw [hv'] at hw; cases hw; exact hid⟩) ht hmd htd
  | ended n v hv t hf hid _ he =>
    subst he
    exact gone_remove (gone_same h (fun v hv' => ⟨v, by simpa [dropStream] using hv', rfl⟩) (by simp [dropStream])
      (by simp [dropStream]) (by simp [dropStream]))
  | failed n hmark _ hv hst hm ht hc htd hmd =>
    exact gone_same (gone_tell h (.failed n) (by simp)) (fun v hv' => ⟨v, hv ▸ hv', rfl⟩) ht hmd htd
  | skipped j id hj hmark _ he => subst he; exact gone_erase h j s.mark
  | late j id hj hmark v hv hne _ he => subst he; exact gone_erase h j true
  | notified j id hj hmark hv _ he =>
    subst he
    have hmem : id ∈ s.tasks := List.mem_of_getElem? hj
    have hx := gone_erase h j true
    obtain ⟨h1, h2, h3, h4, h5⟩ := h
    obtain ⟨x1, x2, x3, x4, x5⟩ := hx
    obtain ⟨m1, m2⟩ := h4 id hmem
    have hnot : id ∉ s.tasks.eraseIdx j := by
      intro hin
      obtain ⟨k, hk, e⟩ := List.mem_eraseIdx_iff_getElem?.mp hin
      have hlt : k < s.tasks.length := Nat.lt_of_not_le fun hle => by
        rw [List.getElem?_eq_none hle] at e; cases e
      exact hk ((List.getElem?_inj hlt h3).mp (e.trans hj.symm))
    refine ⟨x1, fun v hv' => ?_, x3, fun k hk => ?_, fun k hk => ?_⟩
    · exact absurd (hv v hv' ▸ hmem) (h2 v hv').2.1
    · obtain ⟨a, b⟩ := x4 k hk
      refine ⟨a, fun h => ?_⟩
      rcases List.mem_append.mp h with h | h
      · exact b h
      · rw [List.mem_singleton] at h
        cases h
        exact hnot hk
    · by_cases hki : k = id
      · subst hki
        refine ⟨m1, ?_⟩
        rw [tell_told, List.count_append, List.count_eq_zero.mpr m2]
        simp
      · rcases List.mem_append.mp hk with h | h
        · obtain ⟨a, b⟩ := h5 k h
          refine ⟨a, ?_⟩
          rw [tell_told, List.count_append]
          show s.told.count _ + _ = 1
          rw [b]
          simp [Ne.symm hki]
        · rw [List.mem_singleton] at h
          cases h
          exact absurd rfl hki
  | server k hk _ he =>
    subst he
    exact gone_tell (gone_remove (gone_same h (fun v hv' => ⟨v, by simpa using hv', rfl⟩) (by simp) (by simp)
      (by simp))) _ (by simp)
  | dropped id _ hst hm ht hc htd hmd hs hw hv =>
    refine gone_same h (fun w hw' => ?_) ht hmd htd
    rcases hv with ⟨hv, _⟩ | ⟨v, hv, _, hv'⟩
    · exact ⟨w, hv ▸ hw', rfl⟩
    · rw [hv'] at hw'; cases hw'; exact ⟨v, hv, rfl⟩
  | cmdLate j id hj v hv hne _ he => subst he; exact h
  | cmdSent j id hj v hv hne _ he => subst he; exact h
  | cmdNone j id hj hv _ he => subst he; exact gone_tell (s := { s with cmds := s.cmds.eraseIdx j }) h _ (by simp)
  | rekeyed o v hv _ he =>
    subst he
    exact gone_same h (fun w hw => ⟨v, hv, by cases hw; rfl⟩) rfl rfl rfl
  | gone _ he => subst he; exact gone_remove h

theorem made_suffix (s : Node) (as : List Act) : s.made <:+ (run s as).made := by
  induction as generalizing s with
  | nil => exact List.suffix_refl _
  | cons a as ih =>
    refine List.IsSuffix.trans ?_ (ih (step s a).1)
    rcases step_made s a with e | ⟨id, _, e⟩
    · rw [e]; exact List.suffix_refl _
    · rw [e]; exact List.suffix_cons _ _

theorem gone_run (s : Node) (as : List Act) (h : Gone s) (hn : (run s as).made.Nodup) : Gone (run s as) := by
  induction as generalizing s with
  | nil => exact h
  | cons a as ih =>
    exact ih _ (gone_step s a h (hn.sublist (made_suffix _ as).sublist)) hn

theorem gone_fresh (me peer : Nat) (wasm : Bool) : Gone (fresh me peer wasm) :=
  ⟨List.nodup_nil, (by intro v h; cases h), List.nodup_nil, (by intro i h; cases h), (by intro i h; cases h)⟩

/-- **C199.** If no two connections have the same id: when the notifier tells the kernel and the server that a
connection is gone, that connection was made, and there is no connection with the peer any more. -/
theorem C199_gone (me peer : Nat) (wasm : Bool) (as : List Act) (hn : (run (fresh me peer wasm) as).made.Nodup)
    (i id : Nat) (ho : (step (run (fresh me peer wasm) as) (.runTask i)).2 = some id) :
    (run (fresh me peer wasm) as).vconn = none ∧ id ∈ (run (fresh me peer wasm) as).made := by
  obtain ⟨_, h2, _, h4, _⟩ := gone_run _ as (gone_fresh me peer wasm) hn
  generalize run (fresh me peer wasm) as = s at *
  have e := eff_step s (.runTask i)
  generalize (step s (.runTask i)).1 = s' at *
  rw [ho] at e
  cases e with
  | notified j _ hj hmark hv _ he =>
    have hmem : id ∈ s.tasks := List.mem_of_getElem? hj
    refine ⟨?_, (h4 id hmem).1⟩
    cases hv' : s.vconn with
    | none => rfl
    | some v => exact absurd (hv v hv' ▸ hmem) (h2 v hv').2.1

/-- **C199.** It speaks at most once of each connection. -/
theorem C199_once (me peer : Nat) (wasm : Bool) (as : List Act) (hn : (run (fresh me peer wasm) as).made.Nodup)
    (id : Nat) : (run (fresh me peer wasm) as).told.count (.notified id) ≤ 1 := by
  obtain ⟨_, _, _, _, h5⟩ := gone_run _ as (gone_fresh me peer wasm) hn
  by_cases h : Ev.notified id ∈ (run (fresh me peer wasm) as).told
  · exact Nat.le_of_eq (h5 id h).2
  · rw [List.count_eq_zero.mpr h]; exact Nat.zero_le _

example : (run (fresh 1 2 false) [.create 1, .openStream true, .endSession, .runTask 0, .create 2, .openStream true,
    .endStream 1, .runTask 0]).told = [.notified 1, .notified 2] := by decide

/-! ### C200: signals have a cause -/

theorem outs_append (s : Node) (as bs : List Act) : outs s (as ++ bs) = outs s as ++ outs (run s as) bs := by
  induction as generalizing s with
  | nil => rfl
  | cons a as ih =>
    show (step s a).2.toList ++ outs (step s a).1 (as ++ bs) = _
    rw [ih]
    simp [outs, run]

theorem attempts_append (as bs : List Act) : attempts (as ++ bs) = attempts as ++ attempts bs := by
  induction as with
  | nil => rfl
  | cons a as ih => cases a <;> simp [attempts, ih]

theorem attempts_one (a : Act) : attempts [a] = [] ∨ ∃ id, a = .create id ∧ attempts [a] = [id] := by
  cases a
  case create id => exact Or.inr ⟨id, rfl, rfl⟩
  all_goals exact Or.inl rfl

/-- What is known after the steps `as` from the start. -/
def Caused (as : List Act) (s : Node) (sent : List Nat) : Prop :=
  (∀ i ∈ s.made, i ∈ attempts as) ∧
  (∀ i ∈ s.cmds, .dropChannel i ∈ as ∨ (i ∈ attempts as ∧ i ∉ s.made)) ∧
  (∀ i ∈ sent, .dropChannel i ∈ as ∨ Ev.notified i ∈ s.told)

theorem told_sub (s : Node) (a : Act) (e : Ev) (h : e ∈ s.told) : e ∈ (step s a).1.told := by
  have e := eff_step s a
  generalize (step s a).1 = s' at *
  generalize (step s a).2 = o at *
  cases e with
  | quiet _ _ hv hst hm ht hc htd hmd ha hb => rw [htd]; exact h
  | opened l v hv _ v' hv' hid hver hold hact hnot hst hm ht hc htd hmd => rw [htd]; exact h
  | failed n hmark _ hv hst hm ht hc htd hmd => rw [htd]; exact List.mem_append_left _ h
  | dropped id _ hst hm ht hc htd hmd hs hw hv => rw [htd]; exact h
  | _ => subst_vars; simp [dropStream, h]

theorem caused_step (as : List Act) (s : Node) (sent : List Nat) (a : Act) (hk : Known s) (h : Caused as s sent)
    (hn : (attempts (as ++ [a])).Nodup) :
    Caused (as ++ [a]) (step s a).1 (sent ++ (step s a).2.toList) := by
  obtain ⟨h1, h2, h3⟩ := h
  rw [attempts_append] at hn
  have mono : ∀ i, i ∈ attempts as → i ∈ attempts (as ++ [a]) := fun i hi => by
    rw [attempts_append]; exact List.mem_append_left _ hi
  have dmono : ∀ i, Act.dropChannel i ∈ as → Act.dropChannel i ∈ as ++ [a] := fun i hi => List.mem_append_left _ hi
  have hlast : ∀ i, a = .create i → i ∈ attempts (as ++ [a]) := fun i hi => by
    rw [attempts_append, hi]; exact List.mem_append_right _ List.mem_cons_self
  have hnew : ∀ i, a = .create i → i ∉ attempts as := fun i hi hin => by
    rw [hi] at hn
    exact (List.nodup_append.mp hn).2.2 i hin i List.mem_cons_self rfl
  have hmade : ∀ i, i ∈ (step s a).1.made → i ∈ attempts (as ++ [a]) := by
    intro i hi
    rcases step_made s a with e | ⟨id, ea, e⟩
    · rw [e] at hi; exact mono i (h1 i hi)
    · rw [e] at hi
      rcases List.mem_cons.mp hi with rfl | hi
      · exact hlast _ ea
      · exact mono i (h1 i hi)
  have hold : ∀ i, i ∈ attempts as → i ∉ s.made → i ∉ (step s a).1.made := by
    intro i hi hin hi'
    rcases step_made s a with e | ⟨id, ea, e⟩
    · rw [e] at hi'; exact hin hi'
    · rw [e] at hi'
      rcases List.mem_cons.mp hi' with rfl | hi'
      · exact hnew _ ea hi
      · exact hin hi'
  have hc1 : ∀ i, i ∈ s.cmds → .dropChannel i ∈ as ++ [a] ∨ (i ∈ attempts (as ++ [a]) ∧ i ∉ (step s a).1.made) := by
    intro i hi
    rcases h2 i hi with h | ⟨ha, hb⟩
    · exact Or.inl (dmono i h)
    · exact Or.inr ⟨mono i ha, hold i ha hb⟩
  have hs1 : ∀ i ∈ sent, .dropChannel i ∈ as ++ [a] ∨ Ev.notified i ∈ (step s a).1.told := by
    intro i hi
    rcases h3 i hi with h | h
    · exact Or.inl (dmono i h)
    · exact Or.inr (told_sub s a _ h)
  refine ⟨hmade, ?_, ?_⟩
  · clear hmade hs1 h3
    have e := eff_step s a
    generalize (step s a).1 = s' at *
    generalize (step s a).2 = o at *
    cases e with
    | quiet _ _ hv hst hm ht hc htd hmd ha hb => rw [hc]; exact hc1
    | refused id v hv hact _ he =>
      subst he
      intro i hi
      rcases List.mem_append.mp hi with hi | hi
      · exact hc1 i hi
      · rw [List.mem_singleton] at hi; subst hi
        exact Or.inr ⟨hlast _ rfl, fun h => hnew _ rfl (h1 _ h)⟩
    | opened l v hv _ v' hv' hid hver hold hact hnot hst hm ht hc htd hmd => rw [hc]; exact hc1
    | failed n hmark _ hv hst hm ht hc htd hmd => rw [hc]; exact hc1
    | dropped id _ hst hm ht hc htd hmd hs hw hv =>
      rw [hc]
      intro i hi
      rcases List.mem_append.mp hi with hi | hi
      · exact hc1 i hi
      · rw [List.mem_singleton] at hi; subst hi
        exact Or.inl (List.mem_append_right _ List.mem_cons_self)
    | made id hin _ he => subst he; intro i hi; exact hc1 i (by simpa using hi)
    | ended n v hv t hf hid _ he => subst he; intro i hi; exact hc1 i (by simpa [dropStream] using hi)
    | skipped j id hj hmark _ he => subst he; exact hc1
    | late j id hj hmark v hv hne _ he => subst he; exact hc1
    | notified j id hj hmark hv _ he => subst he; exact hc1
    | server k hk _ he => subst he; intro i hi; exact hc1 i (by simpa using hi)
    | cmdLate j id hj v hv hne _ he => subst he; exact fun i hi => hc1 i (List.mem_of_mem_eraseIdx hi)
    | cmdSent j id hj v hv hne _ he => subst he; exact fun i hi => hc1 i (List.mem_of_mem_eraseIdx hi)
    | cmdNone j id hj hv _ he => subst he; exact fun i hi => hc1 i (List.mem_of_mem_eraseIdx hi)
    | rekeyed o v hv _ he => subst he; exact hc1
    | gone _ he => subst he; intro i hi; exact hc1 i (by simpa using hi)
  · intro i hi
    rcases List.mem_append.mp hi with hi | hi
    · exact hs1 i hi
    · clear hmade hc1 hold hs1
      have e := eff_step s a
      generalize (step s a).1 = s' at *
      generalize (step s a).2 = o at *
      cases e with
      | notified j id hj hmark hv _ he =>
        subst he
        have : i = id := by simpa using hi
        subst this
        exact Or.inr (by simp)
      | cmdSent j id hj v hv hne _ he =>
        have : i = id := by simpa using hi
        subst this
        rcases h2 i (List.mem_of_getElem? hj) with h | ⟨_, h⟩
        · exact Or.inl (dmono i h)
        · exact absurd (hne ▸ hk.1 v hv) h
      | _ => simp at hi

/-- **C200, partial.** If no two attempts to connect have the same id, a signal to the server about a connection has a
cause: its channel was dropped, or the notifier found it gone.  An attempt that is refused because there is a connection
already does not disturb that one.  Missing: attempts with the id of the connection there is. -/
theorem C200_cause_partial (me peer : Nat) (wasm : Bool) (as : List Act) (hn : (attempts as).Nodup) (id : Nat)
    (h : id ∈ outs (fresh me peer wasm) as) :
    .dropChannel id ∈ as ∨ Ev.notified id ∈ (run (fresh me peer wasm) as).told := by
  have key : ∀ bs : List Act, (attempts bs.reverse).Nodup →
      Caused bs.reverse (run (fresh me peer wasm) bs.reverse) (outs (fresh me peer wasm) bs.reverse) := by
    intro bs
    induction bs with
    | nil => intro _; exact ⟨(by intro i h; cases h), (by intro i h; cases h), (by intro i h; cases h)⟩
    | cons b bs ih =>
      intro hb
      rw [List.reverse_cons] at hb ⊢
      have hb' : (attempts bs.reverse).Nodup := by
        rw [attempts_append] at hb; exact (List.nodup_append.mp hb).1
      have := caused_step bs.reverse _ _ b (known_run me peer wasm _) (ih hb') hb
      rw [run_append, outs_append]
      simpa [run, outs] using this
  have := key as.reverse (by rw [List.reverse_reverse]; exact hn)
  rw [List.reverse_reverse] at this
  exact this.2.2 id h

example : outs (fresh 1 2 false) [.create 1, .create 2, .runCmd 0, .dropChannel 1, .runCmd 0] = [1] := by decide

/-- A refused attempt with the id of the connection there is: the channel made for it is dropped, and the connection is
ended at the server. -/
theorem C200_counterexample : outs (fresh 1 2 false) [.create 1, .create 1, .runCmd 0] = [1] ∧
    Has (run (fresh 1 2 false) [.create 1, .create 1, .runCmd 0]) 1 := by decide

/-! ### C201: signals do not go round for ever -/

/-- The signals that a client may still send without a new cause. -/
def weight (s : Node) : Nat :=
  s.tasks.length + s.cmds.length + match s.vconn with
    | some v => if v.notifier then 1 else 0
    | none => 0

theorem weight_remove (s : Node) : weight (remove s) = weight s := by
  unfold weight
  rw [remove_vconn, remove_cmds]
  cases hv : s.vconn with
  | none => rw [remove_tasks_none hv]
  | some v =>
    rw [remove_tasks_some hv]
    dsimp only
    split
    · simp; omega
    · rfl

theorem weight_keep (s : Node) : weight (keep s) = weight s := by
  unfold weight; rw [keep_vconn, keep_tasks, keep_cmds]

theorem erase_length {α : Type} {l : List α} {i : Nat} {x : α} (h : l[i]? = some x) :
    (l.eraseIdx i).length + 1 = l.length := by
  have hi : i < l.length := Nat.lt_of_not_le fun hle => by rw [List.getElem?_eq_none hle] at h; cases h
  rw [List.length_eraseIdx_of_lt hi]; omega

theorem weight_step (s : Node) (a : Act) :
    weight (step s a).1 + (step s a).2.toList.length ≤ weight s + causes (.act true a) := by
  have e := eff_step s a
  generalize (step s a).1 = s' at *
  generalize (step s a).2 = o at *
  cases e with
  | quiet _ _ hv hst hm ht hc htd hmd ha hb => unfold weight; rw [hv, ht, hc]; simp
  | refused id v hv hact _ he => subst he; simp [weight, causes]; omega
  | made id hin _ he =>
    subst he
    have := weight_remove s
    unfold weight at this ⊢
    simp only [remove_vconn, remove_cmds] at this ⊢
    simp [causes]
    omega
  | opened l v hv _ v' hv' hid hver hold hact hnot hst hm ht hc htd hmd =>
    unfold weight; rw [hv, hv', ht, hc]
    simp only [causes, Option.toList_none, List.length_nil]
    split <;> split <;> omega
  | ended n v hv t hf hid _ he =>
    subst he
    rw [weight_remove, weight_keep]
    exact Nat.le_add_right _ _
  | failed n hmark _ hv hst hm ht hc htd hmd => unfold weight; rw [hv, ht, hc]; simp
  | skipped j id hj hmark _ he =>
    subst he; have := erase_length hj; simp [weight]; omega
  | late j id hj hmark v hv hne _ he =>
    subst he; have := erase_length hj; simp [weight]; omega
  | notified j id hj hmark hv _ he =>
    subst he; have := erase_length hj; simp [weight]; omega
  | server k hk _ he =>
    subst he
    have : weight (tell (remove (keep s)) .server) = weight s := (weight_remove (keep s)).trans (weight_keep s)
    rw [this]; exact Nat.le_add_right _ _
  | dropped id _ hst hm ht hc htd hmd hs hw hv =>
    unfold weight
    rw [ht, hc]
    rcases hv with ⟨hv, _⟩ | ⟨v, hv, _, hv'⟩
    · rw [hv]; simp [causes]; omega
    · rw [hv, hv']; simp [causes]; omega
  | cmdLate j id hj v hv hne _ he => subst he; have := erase_length hj; simp [weight]; omega
  | cmdSent j id hj v hv hne _ he => subst he; have := erase_length hj; simp [weight]; omega
  | cmdNone j id hj hv _ he => subst he; have := erase_length hj; simp [weight]; omega
  | rekeyed o v hv _ he => subst he; simp [weight, hv]
  | gone _ he => subst he; rw [weight_remove]; exact Nat.le_add_right _ _

theorem weight_onServer (s : Node) (k : Option Nat) : weight (onServer s k) ≤ weight s :=
  weight_step s (.onServer k)

/-- The signals that may still be handled without a new cause. -/
def budget (w : Net) : Nat :=
  3 * (weight w.a + weight w.b + w.ua.length + w.ub.length) + w.da.length + w.db.length

theorem up_length (o : Option Nat) : (up o).length = o.toList.length := by cases o <;> rfl

theorem causes_side (c d : Bool) (a : Act) : causes (.act c a) = causes (.act d a) := by cases a <;> rfl

theorem getElem?_of_lt {α : Type} {l : List α} {i : Nat} (h : i < l.length) : ∃ x, l[i]? = some x :=
  ⟨l[i], List.getElem?_eq_getElem h⟩

theorem budget_move (w : Net) (m : Move) : budget (move w m) + handles w m ≤ budget w + 3 * causes m := by
  cases m with
  | act c x =>
    cases c
    · have hb := weight_step w.b x
      rw [causes_side true false] at hb
      cases x <;> simp only [move, budget, handles, List.length_append, up_length] <;> first | omega | skip
    · have ha := weight_step w.a x
      cases x <;> simp only [move, budget, handles, List.length_append, up_length] <;> first | omega | skip
  | link => simp [move, budget, handles]
  | serve c i =>
    cases c
    · simp only [move, handles, serveB]
      split
      · rename_i h
        have : ¬ i < w.ub.length := fun hlt => by obtain ⟨x, hx⟩ := getElem?_of_lt hlt; rw [hx] at h; cases h
        simp [this]
      · rename_i x h
        have hl := erase_length h
        have : i < w.ub.length := Nat.lt_of_not_le fun hle => by rw [List.getElem?_eq_none hle] at h; cases h
        rw [if_pos this]
        split
        · simp [budget]; omega
        · split <;> simp [budget] <;> omega
    · simp only [move, handles, serveA]
      split
      · rename_i h
        have : ¬ i < w.ua.length := fun hlt => by obtain ⟨x, hx⟩ := getElem?_of_lt hlt; rw [hx] at h; cases h
        simp [this]
      · rename_i x h
        have hl := erase_length h
        have : i < w.ua.length := Nat.lt_of_not_le fun hle => by rw [List.getElem?_eq_none hle] at h; cases h
        rw [if_pos this]
        split
        · simp [budget]; omega
        · split <;> simp [budget] <;> omega
  | deliver c i =>
    cases c
    · simp only [move, handles]
      split
      · rename_i h
        have : ¬ i < w.db.length := fun hlt => by obtain ⟨x, hx⟩ := getElem?_of_lt hlt; rw [hx] at h; cases h
        simp [this]
      · rename_i k h
        have hl := erase_length h
        have hw := weight_onServer w.b k
        have : i < w.db.length := Nat.lt_of_not_le fun hle => by rw [List.getElem?_eq_none hle] at h; cases h
        rw [if_pos this]
        simp [budget]; omega
    · simp only [move, handles]
      split
      · rename_i h
        have : ¬ i < w.da.length := fun hlt => by obtain ⟨x, hx⟩ := getElem?_of_lt hlt; rw [hx] at h; cases h
        simp [this]
      · rename_i k h
        have hl := erase_length h
        have hw := weight_onServer w.a k
        have : i < w.da.length := Nat.lt_of_not_le fun hle => by rw [List.getElem?_eq_none hle] at h; cases h
        rw [if_pos this]
        simp [budget]; omega

/-- **C201.** Signals about ended connections do not go round for ever: from the start, the server and both clients
handle at most three for each stream that comes up, channel that is dropped and connection that is made. -/
theorem C201_no_echo (p q : Nat) (wasm : Bool) (ms : List Move) : handled (net p q wasm) ms ≤ 3 * caused ms := by
  have key : ∀ w : Net, handled w ms ≤ budget w + 3 * caused ms := by
    induction ms with
    | nil => intro w; exact Nat.zero_le _
    | cons m ms ih =>
      intro w
      have h1 := ih (move w m)
      have h2 := budget_move w m
      show handles w m + handled (move w m) ms ≤ budget w + 3 * caused (m :: ms)
      have : caused (m :: ms) = causes m + caused ms := by simp [caused]
      omega
  have := key (net p q wasm)
  simpa [budget, net, fresh, weight] using this

/-! ### C202: the end of an older connection does not end a newer one -/

/-- The connection is in place, and nothing that waits is about it. -/
def Calm (id : Nat) (s : Node) : Prop :=
  (∃ v, s.vconn = some v ∧ v.id = id ∧ v.active = true) ∧ s.tasks = [] ∧ id ∉ s.cmds

/-- Steps that do not end connection `id`. -/
def Mild (id : Nat) : Act → Prop
  | .create i => i ≠ id
  | .endStream _ => False
  | .dropChannel i => i ≠ id
  | .endSession => False
  | .onServer _ => False
  | _ => True

theorem calm_step (id : Nat) (s : Node) (a : Act) (ha : Mild id a) (h : Calm id s) :
    Calm id (step s a).1 ∧ (step s a).2 = none := by
  obtain ⟨⟨v, hv, hid, hact⟩, ht0, hc0⟩ := h
  have e := eff_step s a
  generalize (step s a).1 = s' at *
  generalize (step s a).2 = o at *
  cases e with
  | quiet _ _ hv' hst hm ht hc htd hmd ha hb =>
    exact ⟨⟨⟨v, hv'.trans hv, hid, hact⟩, ht.trans ht0, by rw [hc]; exact hc0⟩, rfl⟩
  | refused i v' hv' hact' _ he =>
    subst he
    refine ⟨⟨⟨v, hv, hid, hact⟩, ht0, fun h => ?_⟩, rfl⟩
    rcases List.mem_append.mp h with h | h
    · exact hc0 h
    · rw [List.mem_singleton] at h; exact ha h.symm
  | made i hin _ he => rw [hin v hv] at hact; cases hact
  | opened l w hw _ v' hv' hid' hver hold hact' hnot hst hm ht hc htd hmd =>
    rw [hv] at hw; cases hw
    exact ⟨⟨⟨v', hv', hid'.trans hid, hact'.trans hact⟩, ht.trans ht0, by rw [hc]; exact hc0⟩, rfl⟩
  | ended n w hw t hf hid' _ he => exact absurd ha (by simp [Mild])
  | failed n hmark _ hv' hst hm ht hc htd hmd =>
    exact ⟨⟨⟨v, hv'.trans hv, hid, hact⟩, ht.trans ht0, by rw [hc]; exact hc0⟩, rfl⟩
  | skipped j i hj hmark _ he => rw [ht0] at hj; simp at hj
  | late j i hj hmark w hw hne _ he => rw [ht0] at hj; simp at hj
  | notified j i hj hmark hw _ he => rw [ht0] at hj; simp at hj
  | server k hk _ he => exact absurd ha (by simp [Mild])
  | dropped i _ hst hm ht hc htd hmd hs hw hv' =>
    refine ⟨⟨?_, ht.trans ht0, fun h => ?_⟩, rfl⟩
    · rcases hv' with ⟨hv', _⟩ | ⟨w, hw', he, _⟩
      · exact ⟨v, hv'.trans hv, hid, hact⟩
      · rw [hv] at hw'; cases hw'
        exact absurd (he.symm.trans hid) ha
    · rw [hc] at h
      rcases List.mem_append.mp h with h | h
      · exact hc0 h
      · rw [List.mem_singleton] at h; exact ha h.symm
  | cmdLate j i hj w hw hne _ he =>
    subst he; exact ⟨⟨⟨v, hv, hid, hact⟩, ht0, fun h => hc0 (List.mem_of_mem_eraseIdx h)⟩, rfl⟩
  | cmdSent j i hj w hw hne _ he =>
    rw [hv] at hw; cases hw
    exact absurd (List.mem_of_getElem? hj) (by rw [← hne, hid]; exact hc0)
  | cmdNone j i hj hw _ he => rw [hv] at hw; cases hw
  | rekeyed o w hw _ he =>
    subst he; rw [hv] at hw; cases hw
    exact ⟨⟨⟨_, rfl, hid, hact⟩, ht0, hc0⟩, rfl⟩
  | gone _ he => exact absurd ha (by simp [Mild])

/-- **C202, partial.** Once both peers have the new connection and nothing about older ones is under way, it stays: late
commands about older connections, further attempts to connect, further streams and re-keys do not end it.  Missing:
signals and tasks about an older connection that are still under way. -/
theorem C202_quiet_partial (id : Nat) (w : Net) (ha : Calm id w.a) (hb : Calm id w.b)
    (hq : w.ua = [] ∧ w.ub = [] ∧ w.da = [] ∧ w.db = []) (ms : List Move)
    (hms : ∀ c x, Move.act c x ∈ ms → Mild id x) : Has (moves w ms).a id ∧ Has (moves w ms).b id := by
  have key : Calm id (moves w ms).a ∧ Calm id (moves w ms).b := by
    induction ms generalizing w with
    | nil => exact ⟨ha, hb⟩
    | cons m ms ih =>
      have hm : ∀ c x, Move.act c x ∈ ms → Mild id x := fun c x h => hms c x (List.mem_cons_of_mem _ h)
      obtain ⟨q1, q2, q3, q4⟩ := hq
      cases m with
      | act c x =>
        have hx := hms c x List.mem_cons_self
        cases c
        · obtain ⟨c1, c2⟩ := calm_step id w.b x hx hb
          have hmv : move w (.act false x) = { w with b := (step w.b x).1, ub := w.ub ++ up (step w.b x).2 } := by
            cases x <;> first | rfl | exact absurd hx (by simp [Mild])
          show Calm id (moves (move w (.act false x)) ms).a ∧ Calm id (moves (move w (.act false x)) ms).b
          rw [hmv]
          exact ih _ ha c1 ⟨q1, by simp [q2, c2, up], q3, q4⟩ hm
        · obtain ⟨c1, c2⟩ := calm_step id w.a x hx ha
          have hmv : move w (.act true x) = { w with a := (step w.a x).1, ua := w.ua ++ up (step w.a x).2 } := by
            cases x <;> first | rfl | exact absurd hx (by simp [Mild])
          show Calm id (moves (move w (.act true x)) ms).a ∧ Calm id (moves (move w (.act true x)) ms).b
          rw [hmv]
          exact ih _ c1 hb ⟨by simp [q1, c2, up], q2, q3, q4⟩ hm
      | link => exact ih _ ha hb ⟨q1, q2, q3, q4⟩ hm
      | serve c i =>
        have : move w (.serve c i) = w := by
          cases c
          · simp [move, serveB, q2]
          · simp [move, serveA, q1]
        show Calm id (moves (move w _) ms).a ∧ Calm id (moves (move w _) ms).b
        rw [this]
        exact ih w ha hb ⟨q1, q2, q3, q4⟩ hm
      | deliver c i =>
        have : move w (.deliver c i) = w := by
          cases c
          · simp [move, q4]
          · simp [move, q3]
        show Calm id (moves (move w _) ms).a ∧ Calm id (moves (move w _) ms).b
        rw [this]
        exact ih w ha hb ⟨q1, q2, q3, q4⟩ hm
  obtain ⟨⟨⟨v, h1, h2, _⟩, _⟩, ⟨⟨v', h3, h4, _⟩, _⟩⟩ := key
  exact ⟨⟨v, h1, h2⟩, ⟨v', h3, h4⟩⟩

/-- Both have connection 2 after connection 1 came and went, and the channel of 1 is dropped only then. -/
example : Has (moves (net 1 2 false) ([.act true (.create 1), .act false (.create 1), .link, .act true .endSession,
    .act false .endSession, .act true (.create 2), .act false (.create 2)] ++
    [.act true (.dropChannel 1), .act true (.runCmd 0), .serve true 0, .deliver false 0])).b 2 := by decide

/-- The channel of connection 1 is dropped, and the peers connect again.  The task of the notifier of connection 1 at
`a` runs after `b` made connection 2 and before `a` does.  The signals that follow have no token, and end connection 2
at both peers, though nobody wanted that and all its streams are fine. -/
def late1 : List Move :=
  [.act true (.create 1), .act false (.create 1), .link, .act true (.openStream true), .act false (.openStream false),
   .act true (.dropChannel 1), .act true (.runCmd 0), .serve true 0, .deliver false 0, .deliver true 0,
   .act false (.create 2), .act false (.openStream false), .act true (.runTask 0), .act true (.create 2),
   .act true (.openStream true), .link]

theorem C202_counterexample :
    Has (moves (net 1 2 false) late1).a 2 ∧ Has (moves (net 1 2 false) late1).b 2 ∧
    (moves (net 1 2 false) late1).ua = [some 1] ∧
    (moves (net 1 2 false) (late1 ++ [.serve true 0, .deliver true 0, .deliver false 0])).a.vconn = none ∧
    (moves (net 1 2 false) (late1 ++ [.serve true 0, .deliver true 0, .deliver false 0])).b.vconn = none := by decide

end Verif.PeerDrop

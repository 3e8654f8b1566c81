import Verif.PeerDrop.Lemmas
/-
Which stream a client keeps, and what becomes of the others.
-/
namespace Verif.PeerDrop

theorem openStream_frame (s : Node) (l : Bool) :
    (openStream s l).me = s.me ∧ (openStream s l).peer = s.peer ∧ (openStream s l).wasm = s.wasm ∧
      (openStream s l).next = s.next + 1 := by
  simp only [openStream]
  split
  · exact ⟨rfl, rfl, rfl, rfl⟩
  · split
    · exact ⟨rfl, rfl, rfl, rfl⟩
    · exact ⟨by simp, by simp, by simp, rfl⟩

theorem openStream_remote {s : Node} {v : VConn} (hv : s.vconn = some v) (l : Bool) :
    ∃ v', (openStream s l).vconn = some v' ∧
      v'.remote = if choose s.me s.peer (v.remote.map (·.2)) l = .discard then v.remote else some (s.next, l) := by
  simp only [openStream, hv]
  split
  · rename_i h; exact ⟨v, by simp, by rw [if_pos h]⟩
  · rename_i h; exact ⟨_, rfl, by rw [if_neg (by rw [h]; simp)]⟩

theorem run_open_right (ls : List Bool) (s : Node) (v : VConn) (hv : s.vconn = some v) (r : Nat × Bool)
    (hr : v.remote = some r) (hl : r.2 = shouldListen s.me s.peer) :
    ∃ v', (run s (ls.map .openStream)).vconn = some v' ∧ v'.remote = some r := by
  induction ls generalizing s v with
  | nil => exact ⟨v, hv, hr⟩
  | cons l ls ih =>
    obtain ⟨v', hv', hr'⟩ := openStream_remote hv l
    have hf := openStream_frame s l
    refine ih (openStream s l) v' hv' ?_ (by rw [hf.1, hf.2.1]; exact hl)
    rw [hr', hr]
    simp [choose, hl]

theorem run_open_wrong (ls : List Bool) (s : Node) (v : VConn) (hv : s.vconn = some v)
    (hr : ∀ r, v.remote = some r → r.2 ≠ shouldListen s.me s.peer) (hin : shouldListen s.me s.peer ∈ ls) :
    ∃ v', (run s (ls.map .openStream)).vconn = some v' ∧
      v'.remote = some (s.next + ls.idxOf (shouldListen s.me s.peer), shouldListen s.me s.peer) := by
  induction ls generalizing s v with
  | nil => cases hin
  | cons l ls ih =>
    obtain ⟨v', hv', hr'⟩ := openStream_remote hv l
    have hf := openStream_frame s l
    by_cases hl : l = shouldListen s.me s.peer
    · have hrr : v'.remote = some (s.next, l) := by
        rw [hr', if_neg]
        cases hvr : v.remote with
        | none => simp [choose]
        | some r => simp [choose, hr r hvr, hl]
      have := run_open_right ls (openStream s l) v' hv' _ hrr (by rw [hf.1, hf.2.1]; exact hl)
      rw [List.idxOf_cons, ← hl]
      simpa [run, step] using this
    · have hw : ∀ r, v'.remote = some r → r.2 ≠ shouldListen (openStream s l).me (openStream s l).peer := by
        rw [hf.1, hf.2.1]
        intro r h
        rw [hr'] at h
        split at h
        · exact hr r h
        · cases h; exact hl
      have hin' : shouldListen (openStream s l).me (openStream s l).peer ∈ ls := by
        rw [hf.1, hf.2.1]
        rcases List.mem_cons.mp hin with h | h
        · exact absurd h.symm hl
        · exact h
      obtain ⟨v2, h1, h2⟩ := ih (openStream s l) v' hv' hw hin'
      refine ⟨v2, h1, ?_⟩
      rw [h2, hf.1, hf.2.1, hf.2.2.2, List.idxOf_cons]
      have : (l == shouldListen s.me s.peer) = false := by simpa using hl
      rw [this]
      simp only [cond_false, Option.some.injEq, Prod.mk.injEq, and_true]
      omega

/-! ### Streams that nobody uses are told to stop -/

/-- A stream that was not told to stop is the one of the connection. -/
def Tidy (s : Node) : Prop :=
  s.wasm = false ∧ (∀ v r, s.vconn = some v → v.remote = some r → r.1 < s.next) ∧
  ∀ t ∈ s.streams, t.n < s.next ∧
    (t.stopped = true ∨ ∃ v, s.vconn = some v ∧ v.remote = some (t.n, t.listener))

theorem stopOf_streams {s : Node} (hw : s.wasm = false) (v : VConn) :
    (stopOf s v).streams = match v.remote with
      | some r => s.streams.map fun t => if t.n = r.1 then { t with stopped := true } else t
      | none => s.streams := by
  unfold stopOf stop
  cases v.remote with
  | some r => simp [hw]
  | none => rfl

/-- After the stream of the connection was told to stop, all were. -/
theorem stopOf_all {s : Node} (h : Tidy s) {v : VConn} (hv : s.vconn = some v) :
    ∀ t ∈ (stopOf s v).streams, t.n < s.next ∧ t.stopped = true := by
  obtain ⟨hw, _, hs⟩ := h
  intro t ht
  rw [stopOf_streams hw] at ht
  split at ht
  · rename_i r hr
    obtain ⟨u, hu, rfl⟩ := List.mem_map.mp ht
    obtain ⟨h1, h2⟩ := hs u hu
    split
    · exact ⟨h1, rfl⟩
    · rename_i hn
      refine ⟨h1, ?_⟩
      rcases h2 with h2 | ⟨v', hv', hr'⟩
      · exact h2
      · rw [hv] at hv'; cases hv'
        rw [hr] at hr'; cases hr'
        exact absurd rfl hn
  · rename_i hr
    obtain ⟨h1, h2⟩ := hs t ht
    refine ⟨h1, ?_⟩
    rcases h2 with h2 | ⟨v', hv', hr'⟩
    · exact h2
    · rw [hv] at hv'; cases hv'
      rw [hr] at hr'; cases hr'

theorem remove_next (s : Node) : (remove s).next = s.next := by
  unfold remove; split <;> simp

theorem remove_all {s : Node} (h : Tidy s) : ∀ t ∈ (remove s).streams, t.n < s.next ∧ t.stopped = true := by
  unfold remove
  split
  · rename_i hv
    intro t ht
    obtain ⟨h1, h2⟩ := h.2.2 t ht
    refine ⟨h1, ?_⟩
    rcases h2 with h2 | ⟨v', hv', _⟩
    · exact h2
    · rw [hv] at hv'; cases hv'
  · rename_i v hv
    exact stopOf_all h hv

theorem tidy_remove {s : Node} (h : Tidy s) : Tidy (remove s) :=
  ⟨(by rw [remove_wasm]; exact h.1), (fun v r hv => by rw [remove_vconn] at hv; cases hv),
    (fun t ht => by rw [remove_next]; exact ⟨(remove_all h t ht).1, Or.inl (remove_all h t ht).2⟩)⟩

theorem tidy_keep {s : Node} (h : Tidy s) : Tidy (keep s) := by
  unfold keep
  split
  · exact h
  · exact h

theorem tidy_sub {s s' : Node} (h : Tidy s) (hw : s'.wasm = s.wasm) (hv : s'.vconn = s.vconn) (hn : s'.next = s.next)
    (hs : ∀ t ∈ s'.streams, ∃ u ∈ s.streams, t.n = u.n ∧ t.listener = u.listener ∧ (u.stopped = true → t.stopped = true)) :
    Tidy s' := by
  refine ⟨hw.trans h.1, (by rw [hv, hn]; exact h.2.1), fun t ht => ?_⟩
  obtain ⟨u, hu, e1, e2, e3⟩ := hs t ht
  obtain ⟨h1, h2⟩ := h.2.2 u hu
  rw [hn, hv, e1, e2]
  exact ⟨h1, h2.imp_left e3⟩

theorem tidy_same {s s' : Node} (h : Tidy s) (hw : s'.wasm = s.wasm) (hv : s'.vconn = s.vconn) (hn : s'.next = s.next)
    (hs : s'.streams = s.streams) : Tidy s' :=
  tidy_sub h hw hv hn fun t ht => ⟨t, hs ▸ ht, rfl, rfl, id⟩

theorem tidy_vconn {s : Node} (h : Tidy s) {v v' : VConn} (hv : s.vconn = some v) (hr : v'.remote = v.remote) :
    Tidy { s with vconn := some v' } := by
  refine ⟨h.1, fun w r hw he => ?_, fun t ht => ?_⟩
  · cases hw; rw [hr] at he; exact h.2.1 v r hv he
  · obtain ⟨h1, h2⟩ := h.2.2 t ht
    refine ⟨h1, h2.imp_right ?_⟩
    rintro ⟨w, hw, hx⟩
    rw [hv] at hw; cases hw
    exact ⟨v', rfl, hr.trans hx⟩

theorem tidy_drop {s : Node} (h : Tidy s) (n : Nat) : Tidy (dropStream s n) :=
  tidy_sub h rfl rfl rfl fun t ht => ⟨t, (List.mem_filter.mp ht).1, rfl, rfl, id⟩

theorem tidy_step (s : Node) (a : Act) (h : Tidy s) : Tidy (step s a).1 := by
  cases a with
  | create id =>
    simp only [step, create]
    have put : Tidy { remove s with vconn := some { id := id }, stale := none, made := id :: s.made } := by
      refine ⟨(by show (remove s).wasm = _; rw [remove_wasm]; exact h.1), fun w r hw he => ?_, fun t ht => ?_⟩
      · cases hw; cases he
      · exact ⟨(by show t.n < (remove s).next; rw [remove_next]; exact (remove_all h t ht).1),
          Or.inl (remove_all h t ht).2⟩
    split
    · split
      · exact tidy_same h rfl rfl rfl rfl
      · exact put
    · exact put
  | openStream l =>
    simp only [step, openStream]
    split
    · refine ⟨h.1, fun v r hv hr => Nat.lt_succ_of_lt (h.2.1 v r hv hr), fun t ht => ?_⟩
      obtain ⟨h1, h2⟩ := h.2.2 t ht
      exact ⟨Nat.lt_succ_of_lt h1, h2⟩
    · rename_i v hv
      split
      · refine ⟨h.1, fun w r hw hr => Nat.lt_succ_of_lt (h.2.1 w r hw hr), fun t ht => ?_⟩
        rcases List.mem_append.mp ht with ht | ht
        · obtain ⟨h1, h2⟩ := h.2.2 t ht
          exact ⟨Nat.lt_succ_of_lt h1, h2⟩
        · rw [List.mem_singleton] at ht
          subst ht
          exact ⟨Nat.lt_succ_self _, Or.inl (by simp [h.1])⟩
      · refine ⟨by simpa using h.1, fun w r hw hr => ?_, fun t ht => ?_⟩
        · cases hw; cases hr; exact Nat.lt_succ_self _
        · rcases List.mem_append.mp ht with ht | ht
          · exact ⟨Nat.lt_succ_of_lt (stopOf_all h hv t ht).1, Or.inl (stopOf_all h hv t ht).2⟩
          · rw [List.mem_singleton] at ht
            subst ht
            exact ⟨Nat.lt_succ_self _, Or.inr ⟨_, rfl, rfl⟩⟩
  | stopStream n =>
    simp only [step, stopStream]
    split
    · split
      · exact tidy_drop h n
      · exact h
    · exact h
  | endStream n =>
    simp only [step, endStream]
    split
    · unfold cleanup
      split
      · exact tidy_drop h n
      · split
        · exact tidy_remove (tidy_keep (tidy_drop h n))
        · exact tidy_drop h n
    · exact h
  | failStream n =>
    simp only [step, failStream]
    split
    · split
      · exact h
      · have key : Tidy { s with
            streams := s.streams.map fun u => if u.n = n then { u with failed := true } else u } := by
          refine tidy_sub h rfl rfl rfl fun t ht => ?_
          obtain ⟨u, hu, rfl⟩ := List.mem_map.mp ht
          refine ⟨u, hu, ?_⟩
          split <;> exact ⟨rfl, rfl, id⟩
        split
        · exact key
        · exact tidy_same key rfl rfl rfl rfl
    · exact h
  | runTask i =>
    simp only [step, runTask]
    split
    · exact h
    · split
      · exact tidy_same h rfl rfl rfl rfl
      · split
        · split
          · exact tidy_same h rfl rfl rfl rfl
          · exact tidy_same h rfl rfl rfl rfl
        · exact tidy_same h rfl rfl rfl rfl
  | onServer k =>
    simp only [step, onServer]
    have go : Tidy (tell (remove (keep s)) .server) :=
      tidy_same (tidy_remove (tidy_keep h)) rfl rfl rfl rfl
    split
    · split
      · exact h
      · exact go
    · exact go
  | dropChannel id =>
    simp only [step, dropChannel]
    split
    · rename_i v hv
      split
      · exact tidy_vconn (s := { s with cmds := s.cmds ++ [id] }) (tidy_same h rfl rfl rfl rfl) hv rfl
      · exact tidy_same h rfl rfl rfl rfl
    · exact tidy_same h rfl rfl rfl rfl
  | runCmd i =>
    simp only [step, runCmd]
    split
    · exact h
    · split
      · split
        · exact tidy_same h rfl rfl rfl rfl
        · exact tidy_same h rfl rfl rfl rfl
      · exact tidy_same h rfl rfl rfl rfl
  | rekey o =>
    simp only [step, rekey]
    split
    · rename_i v hv; exact tidy_vconn h hv rfl
    · exact h
  | endSession => exact tidy_remove h

end Verif.PeerDrop

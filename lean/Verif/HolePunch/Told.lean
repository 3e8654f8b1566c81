import Verif.HolePunch.Step
/-!
What an endpoint that is told to use a socket still has.
-/
namespace Verif.HolePunch

variable {R : Nat → Nat → Prop} {w : Net}

structure Told (x : Node) : Prop where
  free : x.commanded = none → x.done = false → ∀ (i : Nat) (p : Punch), x.ps[i]? = some p → p.st = .taken → ∃ j, (i, j) ∈ x.enq
  skip : x.killed = none → ∀ (i : Nat) (p : Punch), x.ps[i]? = some p → p.st ≠ .skipped
  cmd : ∀ (l r : Nat) (p : Punch), x.commanded = some (l, r) → x.done = false → x.ps[l]? = some p → p.st = .taken ∨ p.st = .skipped →
    (l, r) ∈ x.enq ∨ some (l, r) ∈ x.rebuilt
  ended : x.res = .ended → x.done = false →
    (∀ (i : Nat) (p : Punch), x.ps[i]? = some p → p.st = .taken ∨ p.st = .listed) ∨ (x.reader = false ∧ x.commanded = none)
  dead : x.res = .dead → ∀ (i : Nat) (p : Punch), x.ps[i]? = some p → p.st = .listed
  poller : x.poller = true
  rebuilder : x.rebuilder = false → x.done = false → ∀ (i : Nat) (p : Punch), x.ps[i]? = some p → p.st = .listed

/-- What the pieces of the node that matter here are. -/
theorem Told.congr {x x' : Node} (h : Told x) (h1 : x'.ps = x.ps) (h2 : x'.enq = x.enq) (h3 : x'.rebuilt = x.rebuilt)
    (h4 : x'.commanded = x.commanded) (h5 : x'.killed = x.killed) (h6 : x'.res = x.res) (h7 : x'.reader = x.reader)
    (h8 : x'.poller = x.poller) (h9 : x'.rebuilder = x.rebuilder) (h10 : x'.done = x.done) : Told x' := by
  obtain ⟨g1, g2, g3, g4, g5, g6, g7⟩ := h
  constructor
  · rwa [h1, h2, h4, h10]
  · rwa [h1, h5]
  · rwa [h1, h2, h3, h4, h10]
  · rwa [h1, h4, h6, h7, h10]
  · rwa [h1, h6]
  · rwa [h8]
  · rwa [h1, h9, h10]

theorem allListed_iff (x : Node) : x.allListed = true ↔ ∀ (i : Nat) (p : Punch), x.ps[i]? = some p → p.st = .listed := by
  unfold Node.allListed
  rw [List.all_eq_true]
  constructor
  · intro h i p hp
    simpa using h p (List.mem_of_getElem? hp)
  · intro h p hp
    obtain ⟨i, hi⟩ := List.getElem?_of_mem hp
    simpa using h i p hi

/-- A running puncher does something. -/
theorem Told.run {x : Node} (h : Told x) {i : Nat} {p p' : Punch} (hp : x.ps[i]? = some p) (hs : p.st = .running)
    (h1 : p'.st ≠ .taken) (h2 : p'.st ≠ .skipped) : Told (x.setP i p') := by
  have hg := fun j => get_setP (p' := p') hp j
  obtain ⟨g1, g2, g3, g4, g5, g6, g7⟩ := h
  constructor <;> (try simp only [hg]) <;> simp only [Node.setP] <;> grind

theorem Told.skipped {x : Node} (h : Told x) {i : Nat} {p p' : Punch} {v : Nat × Nat} (hp : x.ps[i]? = some p) (hs : p.st = .running)
    (hk : x.killed = some v) (hc : x.commanded = some v) (e : Option (Nat × Nat))
    (he : i = v.1 → e = some v) (hs' : p'.st = .skipped) :
    Told { x.setP i p' with rebuilt := x.rebuilt ++ [e] } := by
  have hg := fun j => get_setP (p' := p') hp j
  obtain ⟨g1, g2, g3, g4, g5, g6, g7⟩ := h
  simp only [Node.setP] at hg
  constructor <;> simp only [Node.setP, hg] <;> grind

theorem Told.pushed {x : Node} (h : Told x) {i j : Nat} {p : Punch} (hp : x.ps[i]? = some p) (hs : p.st = .okay j)
    (hr : x.res = .idle) (hm : ∀ r, x.commanded = some (i, r) → j = r) :
    Told { x.setP i { p with st := .taken } with enq := x.enq ++ [(i, j)], res := .pushed i j } := by
  have hg := fun k => get_setP (p' := { p with st := .taken }) hp k
  obtain ⟨g1, g2, g3, g4, g5, g6, g7⟩ := h
  simp only [Node.setP] at hg
  constructor <;> simp only [Node.setP, hg] <;> grind

theorem Told.skippedTaken {x : Node} (h : Told x) {i : Nat} {p : Punch} (hp : x.ps[i]? = some p) (hs : p.st = .skipped)
    (hr : x.res = .idle) (hc : x.killed ≠ none → x.commanded ≠ none) :
    Told (x.setP i { p with st := .taken }) := by
  have hg := fun k => get_setP (p' := { p with st := .taken }) hp k
  obtain ⟨g1, g2, g3, g4, g5, g6, g7⟩ := h
  simp only [Node.setP] at hg
  constructor <;> simp only [Node.setP, hg] <;> grind

theorem Told.listed {x : Node} (h : Told x) {i : Nat} {p : Punch} (hp : x.ps[i]? = some p) (hs : p.st = .failed) :
    Told (x.setP i { p with st := .listed }) := by
  have hg := fun k => get_setP (p' := { p with st := .listed }) hp k
  obtain ⟨g1, g2, g3, g4, g5, g6, g7⟩ := h
  simp only [Node.setP] at hg
  constructor <;> simp only [Node.setP, hg] <;> grind

theorem Told.res {x : Node} (h : Told x) (r : RSt) (hr : r ≠ .ended) (hd : r = .dead → x.allListed = true) :
    Told { x with res := r } := by
  rw [allListed_iff] at hd
  obtain ⟨g1, g2, g3, g4, g5, g6, g7⟩ := h
  constructor <;> grind

theorem Told.endRes {x : Node} (h : Told x) (ha : x.ps.all (fun p => decide (p.st = .taken ∨ p.st = .listed)) = true) :
    Told { x with res := .ended, reader := false } := by
  have ha : ∀ (i : Nat) (p : Punch), x.ps[i]? = some p → p.st = .taken ∨ p.st = .listed := by
    rw [List.all_eq_true] at ha
    intro i p hp
    simpa using ha p (List.mem_of_getElem? hp)
  obtain ⟨g1, g2, g3, g4, g5, g6, g7⟩ := h
  constructor <;> grind

/-- The endpoint is told, or told once more. -/
theorem Told.told {x : Node} (h : Told x) (l r : Nat) (hc : x.commanded = none ∨ x.commanded = some (l, r))
    (hk : x.commanded = none → x.killed = none) (hend : x.reader = true ∨ x.res ≠ .ended)
    (hm : ∀ j, (l, j) ∈ x.enq → j = r) : Told { x with commanded := some (l, r) } := by
  obtain ⟨g1, g2, g3, g4, g5, g6, g7⟩ := h
  constructor <;> grind

theorem Told.canEnd {x : Node} (h : Told x) (hc : x.commanded = none) : Told { x with reader := false, res := .ended } := by
  obtain ⟨g1, g2, g3, g4, g5, g6, g7⟩ := h
  constructor <;> grind

theorem Told.reader {x : Node} (h : Told x) : Told { x with reader := false } := by
  obtain ⟨g1, g2, g3, g4, g5, g6, g7⟩ := h
  constructor <;> grind

/-- When the `select!` is through, nothing more is wanted. -/
theorem Told.through {x : Node} (h1 : x.done = true) (h2 : x.res ≠ .dead) (h3 : x.poller = true)
    (h4 : x.killed = none → ∀ (i : Nat) (p : Punch), x.ps[i]? = some p → p.st ≠ .skipped) : Told x := by
  constructor <;> grind

theorem Told.kills {x : Node} (h : Told x) (v : Nat × Nat) : Told { x with killed := some v } := by
  obtain ⟨g1, g2, g3, g4, g5, g6, g7⟩ := h
  constructor <;> grind

theorem Told.noneEnq {x : Node} (h : Told x) {l r : Nat} (hc : x.commanded = some (l, r))
    (hn : (l, r) ∉ x.enq) : Told { x with enq := [] } := by
  obtain ⟨g1, g2, g3, g4, g5, g6, g7⟩ := h
  constructor <;> grind

theorem Told.rebuiltRest {x : Node} (h : Told x) {rest : List (Option (Nat × Nat))} (b : Bool)
    (hr : x.rebuilt = none :: rest) (hb : b = false → x.allListed = true) : Told { x with rebuilt := rest, rebuilder := b } := by
  rw [allListed_iff] at hb
  obtain ⟨g1, g2, g3, g4, g5, g6, g7⟩ := h
  constructor <;> grind

theorem rel_not {s : Bool} {i j : Nat} (h : Rel R (!s) i j) : Rel R s j i := by
  cases s <;> exact h

theorem Matching.rel {s : Bool} {i j k : Nat} (h : Matching R) (h1 : Rel R s i j) (h2 : Rel R s i k) : j = k := by
  cases s
  · exact h.1 _ _ _ h1 h2
  · exact h.2 _ _ _ h1 h2

/-- The socket one is told to use was reached by the peer. -/
theorem Inv.got (h : Inv R w) {s : Bool} {l r : Nat} (hc : Cmd (w.get s) l r) : Got (w.get s) l r := by
  rcases (h.half s).cmds l r hc with e | e | e
  · exact ((h.both s).2.f2 r l e.2.1 e.2.2).2
  · exact (h.both s).2.cur r l (by rw [e]; exact ⟨rfl, rfl⟩)
  · exact e.2.2.2.2.2

/-- There is one such socket. -/
theorem Inv.same (h : Inv R w) {s : Bool} {l r l' r' : Nat} (hd : (w.get s).done = false) (hc : Cmd (w.get s) l r)
    (hc' : Cmd (w.get s) l' r') : l = l' ∧ r = r' := by
  have h1 := (h.half s).cmds l r hc
  have h2 := (h.half s).cmds l' r' hc'
  have h3 := (h.both s).2.val
  unfold Won at h1 h2
  grind [RSt.Holds]

theorem Inv.match (h : Inv R w) (hm : Matching R) {s : Bool} {l r j : Nat} (hg : Got (w.get s) l r) (hj : Got (w.get (!s)) j l) :
    j = r := by
  obtain ⟨p, hp, e⟩ := hg
  obtain ⟨q, hq, e'⟩ := hj
  exact hm.rel (rel_not ((h.both s).2.rel j q l hq e')) ((h.half s).rel l p r hp e)

theorem Told.both {w w' : Net} {s : Bool} (h : ∀ s, Told (w.get s)) (h1 : Told (w'.get s))
    (h2 : ∃ q, w'.get (!s) = { w.get (!s) with inbox := q }) : ∀ s, Told (w'.get s) := by
  intro t
  by_cases e : t = s
  · subst e
    exact h1
  · have : t = !s := by
      cases t <;> cases s <;> simp_all
    subst this
    obtain ⟨q, e⟩ := h2
    rw [e]
    exact (h _).congr rfl rfl rfl rfl rfl rfl rfl rfl rfl rfl

theorem Told.one {w w' : Net} {s : Bool} (h : ∀ s, Told (w.get s)) (h1 : Told (w'.get s))
    (h2 : w'.get (!s) = w.get (!s)) : ∀ s, Told (w'.get s) :=
  Told.both h h1 ⟨_, h2⟩

theorem Told.failure {w w' : Net} {s : Bool} (h : ∀ s, Told (w.get s)) (h1 : Told (w'.get s))
    (h2 : w'.get (!s) = w.get (!s)) : ∀ t, Told ((w'.failure s).get t) := by
  refine Told.both (s := s) h ?_ ⟨_, by rw [Net.get_failure', h2]⟩
  rw [Net.get_failure]
  exact h1.congr rfl rfl rfl rfl rfl rfl rfl rfl rfl rfl

theorem Told.submit {x : Node} (h3 : x.poller = true)
    (h4 : x.killed = none → ∀ (i : Nat) (p : Punch), x.ps[i]? = some p → p.st ≠ .skipped) (v : Nat × Nat) : Told (x.submit v) := by
  unfold Node.submit
  split
  · exact Told.through rfl (by simp) h3 h4
  · exact Told.through rfl (by simp) h3 h4

theorem Told.step (hm : Matching R) (hi : Inv R w) (h : ∀ s, Told (w.get s)) (ev : Ev) :
    ∀ s, Told ((w.step ev).get s) := by
  cases ev with
  | syn s i j =>
    simp only [Net.step]
    split
    · rename_i p hp
      split
      · rename_i hc
        refine Told.one (s := s) h ?_ (by simp)
        rw [Net.get_set]
        exact (h s).run hp hc.1 (by simp [hc.1]) (by simp [hc.1])
      · exact h
    · exact h
  | ack s i j =>
    simp only [Net.step]
    split
    · rename_i p q hp hq
      split
      · rename_i hc
        refine Told.one (s := s) h ?_ (by simp)
        rw [Net.get_set]
        exact (h s).run hp hc.1 (by simp) (by simp)
      · exact h
    · exact h
  | fail s i =>
    simp only [Net.step]
    split
    · rename_i p hp
      split
      · rename_i hc
        refine Told.one (s := s) h ?_ (by simp)
        rw [Net.get_set]
        exact (h s).run hp hc (by simp) (by simp)
      · exact h
    · exact h
  | kill s i =>
    simp only [Net.step]
    split
    · rename_i p l r hp hk
      have hcm := (hi.half s).killed _ hk
      split
      · rename_i hc
        split
        · rename_i hil
          subst hil
          split
          · refine Told.one (s := s) h ?_ (by simp)
            rw [Net.get_set]
            exact (h s).skipped hp hc hk hcm _ (fun _ => rfl) rfl
          · refine Told.one (s := s) h ?_ (by simp)
            rw [Net.get_set]
            exact (h s).run hp hc (by simp) (by simp)
        · rename_i hil
          refine Told.one (s := s) h ?_ (by simp)
          rw [Net.get_set]
          exact (h s).skipped hp hc hk hcm _ (fun e => absurd e hil) rfl
      · exact h
    · exact h
  | next s i =>
    simp only [Net.step]
    split
    · exact h
    · rename_i hc
      have hr : (w.get s).res = .idle := by
        apply Classical.byContradiction
        intro hx
        exact hc (.inr hx)
      split
      · exact h
      · rename_i p hp
        split
        · rename_i j hst
          have hg := (hi.half s).okay i p j hp hst
          refine Told.one (s := s) h ?_ (by simp)
          rw [Net.get_set]
          exact (h s).pushed hp hst hr (fun r e => hi.match hm (hi.got (.inl e)) hg)
        · rename_i hst
          refine Told.one (s := s) h ?_ (by simp)
          rw [Net.get_set]
          refine (h s).skippedTaken hp hst hr ?_
          intro hk hn
          cases hkk : (w.get s).killed with
          | none => exact hk hkk
          | some v =>
            rw [(hi.half s).killed v hkk] at hn
            cases hn
        · rename_i hst
          have hl := (h s).listed hp hst
          split
          · rename_i hall
            split
            · refine Told.one (s := s) h ?_ (by simp)
              rw [Net.get_set]
              exact hl.res .dead (by simp) (fun _ => hall)
            · exact Told.failure h (by rw [Net.get_set]; exact hl) (by simp)
          · refine Told.one (s := s) h ?_ (by simp)
            rw [Net.get_set]
            exact hl
        · exact h
  | check s =>
    simp only [Net.step]
    split
    · refine Told.one (s := s) h ?_ (by simp)
      rw [Net.get_set]
      exact (h s).res _ (by split <;> simp) (by split <;> simp)
    · exact h
  | lock s =>
    simp only [Net.step]
    split
    · rename_i i j hr
      have hd := hi.notDone (s := s) (by rw [hr]; simp)
      split
      · exact h
      · split
        · rename_i v hv
          refine Told.one (s := s) h ?_ (by simp)
          rw [Net.get_set]
          obtain ⟨l, r⟩ := v
          have h1 := (h s).res .idle (by simp) (by simp)
          have hgot : Got (w.get s) l r := by
            rcases (hi.half s).vset l r hv with e | e
            · exact absurd ((hi.half s).fin _ e.1) (by rw [hd]; simp)
            · exact ((hi.both s).2.f2 r l e.1 e.2).2
          refine h1.told l r ?_ ?_ (.inr (by simp)) ?_
          · cases hcm : (w.get s).commanded with
            | none => exact .inl rfl
            | some v' =>
              right
              obtain ⟨l', r'⟩ := v'
              have hw := (hi.half s).cmds l' r' (.inl hcm)
              have hl := (hi.both s).2.val
              unfold Won at hw
              grind [RSt.Holds]
          · intro (e : (w.get s).commanded = none)
            cases hkk : (w.get s).killed with
            | none => rfl
            | some v =>
              rw [(hi.half s).killed v hkk] at e
              cases e
          · intro k hk
            exact hi.match hm hgot ((hi.half s).enq l k hk)
        · refine Told.one (s := s) h ?_ (by simp)
          rw [Net.get_mk, Net.get_set]
          exact (h s).res _ (by simp) (by simp)
    · exact h
  | lockFail s =>
    simp only [Net.step]
    split
    · refine Told.one (s := s) h ?_ (by simp)
      rw [Net.get_set]
      exact (h s).res _ (by simp) (by simp)
    · exact h
  | send s =>
    simp only [Net.step]
    split
    · refine Told.both (s := s) h ?_ ⟨_, by rw [Net.get_post, Net.get_set']⟩
      rw [Net.get_post', Net.get_set]
      exact (h s).res _ (by simp) (by simp)
    · exact h
  | win s =>
    simp only [Net.step]
    split
    · split
      · refine Told.one (s := s) h ?_ (by simp)
        rw [Net.get_mk, Net.get_release, Net.get_set]
        exact Told.submit (by exact (h s).poller) (by exact (h s).skip) _
      · refine Told.one (s := s) h ?_ (by simp)
        rw [Net.get_release, Net.get_set]
        exact Told.through rfl (by simp) (h s).poller (h s).skip
    · exact h
  | endRes s =>
    simp only [Net.step]
    split
    · rename_i hc
      refine Told.one (s := s) h ?_ (by simp)
      rw [Net.get_set]
      exact (h s).endRes hc.2
    · exact h
  | read s =>
    simp only [Net.step]
    split
    · exact h
    · rename_i hc
      have hd : (w.get s).done = false := by
        cases hx : (w.get s).done with
        | false => rfl
        | true => exact absurd (.inl hx) hc
      have hrd : (w.get s).reader = true := by
        cases hx : (w.get s).reader with
        | true => rfl
        | false => exact absurd (.inr hx) hc
      split
      · exact h
      · rename_i m rest hin
        have h1 : Told { w.get s with inbox := rest } := (h s).congr rfl rfl rfl rfl rfl rfl rfl rfl rfl rfl
        split
        · rename_i l r
          have hcm : Cmd (w.get s) l r := .inr (by rw [hin]; exact List.mem_cons_self ..)
          refine Told.one (s := s) h ?_ (by simp)
          simp only [Net.get_set]
          refine h1.told l r ?_ ?_ (.inl hrd) ?_
          · cases hcm' : (w.get s).commanded with
            | none => exact .inl rfl
            | some v' =>
              right
              obtain ⟨l', r'⟩ := v'
              obtain ⟨rfl, rfl⟩ := hi.same hd hcm (.inl hcm')
              rfl
          · intro (e : (w.get s).commanded = none)
            cases hkk : (w.get s).killed with
            | none => rfl
            | some v =>
              rw [(hi.half s).killed v hkk] at e
              cases e
          · intro k hk
            exact hi.match hm (hi.got hcm) ((hi.half s).enq l k hk)
        · split
          · refine Told.one (s := s) h ?_ (by simp)
            simp only [Net.get_set]
            exact h1.reader
          · exact Told.failure h (by rw [Net.get_set]; exact h1) (by simp)
        · refine Told.one (s := s) h ?_ (by simp)
          rw [Net.get_release]
          simp only [Net.get_set]
          refine h1.canEnd ?_
          have hce := (hi.half s).canEnd (by rw [hin]; exact List.mem_cons_self ..)
          show (w.get s).commanded = none
          cases hcm : (w.get s).commanded with
          | none => rfl
          | some v =>
            obtain ⟨l, r⟩ := v
            have hw := (hi.half s).cmds l r (.inl hcm)
            have hdd := (hi.both s).2.done
            unfold Won at hw
            grind
  | tick s =>
    simp only [Net.step]
    split
    · exact h
    · split
      · exact h
      · rename_i l r hcm
        obtain ⟨p0, hp0, hgot⟩ := hi.got (.inl hcm)
        have hk := (h s).kills (l, r)
        split
        · refine Told.one (s := s) h ?_ (by simp)
          rw [Net.get_release, Net.get_set]
          exact Told.submit hk.poller hk.skip _
        · rename_i hs
          have hn : (l, r) ∉ (w.get s).enq := by
            intro hmem
            rw [List.find?_eq_none] at hs
            have := hs (l, r) (List.mem_reverse.mpr hmem)
            simp at this
          have hk' := hk.noneEnq hcm hn
          have hlist : (w.get s).allListed = true → p0.st = .listed := fun e => (allListed_iff _).mp e l p0 hp0
          split
          · rename_i p hp
            have : p = p0 := by
              have hp : (w.get s).ps[l]? = some p := hp
              rw [hp0] at hp
              cases hp
              rfl
            subst this
            split
            · refine Told.one (s := s) h ?_ (by simp)
              rw [Net.get_release, Net.get_set]
              refine Told.submit (by exact hk'.poller) ?_ _
              intro e
              cases e
            · rename_i hno
              split
              · rename_i hall
                exact absurd ⟨hlist hall, hgot⟩ hno
              · refine Told.one (s := s) h ?_ (by simp)
                rw [Net.get_set]
                exact hk'
          · rename_i hp
            have hp : (w.get s).ps[l]? = none := hp
            rw [hp0] at hp
            cases hp
  | rebuild s =>
    simp only [Net.step]
    split
    · exact h
    · split
      · exact h
      · refine Told.one (s := s) h ?_ (by simp)
        rw [Net.get_release, Net.get_set]
        exact Told.submit (by exact (h s).poller) (by exact (h s).skip) _
      · rename_i rest hr
        refine Told.one (s := s) h ?_ (by simp)
        rw [Net.get_set]
        exact (h s).rebuiltRest _ hr (by simp)
  | bothFailed s =>
    simp only [Net.step]
    split
    · exact h
    · rename_i hc
      exact absurd (.inr (.inl (h s).poller)) hc
  | finish s =>
    simp only [Net.step]
    split
    · exact h
    · split
      · split
        · exact h
        · refine Told.one (s := s) h ?_ (by simp)
          rw [Net.get_set]
          exact (h s).congr rfl rfl rfl rfl rfl rfl rfl rfl rfl rfl
      · refine Told.both (s := s) h ?_ ⟨_, by rw [Net.get_post, Net.get_set']⟩
        rw [Net.get_post', Net.get_set]
        exact (h s).congr rfl rfl rfl rfl rfl rfl rfl rfl rfl rfl

theorem Told.init (n m : Nat) : ∀ s, Told ((Net.init n m).get s) := by
  intro s
  cases s <;> constructor <;> simp [Net.init, Net.get, List.getElem?_replicate]

theorem ReachR.told {n m : Nat} (hm : Matching R) (h : ReachR R n m w) : ∀ s, Told (w.get s) := by
  induction h with
  | init => exact Told.init n m
  | step ev hr _ ih => exact Told.step hm hr.inv ih ev

end Verif.HolePunch

import Verif.HolePunch.Alive
/-!
An endpoint that is told to use a socket can use it.
-/
namespace Verif.HolePunch

variable {R : Nat → Nat → Prop} {w : Net} {n m : Nat}

theorem Ev.Quiet.along {ev : Ev} (h : ev.Quiet) : ev.Along R := by
  cases ev with
  | syn s i j => exact h.elim
  | _ => trivial

theorem Net.steps_append (w : Net) (a b : List Ev) : w.steps (a ++ b) = (w.steps a).steps b := by
  induction a generalizing w with
  | nil => rfl
  | cons e a ih => exact ih _

theorem ReachR.steps (h : ReachR R n m w) (evs : List Ev) (hq : ∀ ev ∈ evs, ev.Quiet) : ReachR R n m (w.steps evs) := by
  induction evs generalizing w with
  | nil => exact h
  | cons e evs ih =>
    exact ih (h.step e (hq e (List.mem_cons_self ..)).along) (fun ev hm => hq ev (List.mem_cons_of_mem _ hm))

/-- The socket is there, `drive` is about to return it. -/
structure Fin (s : Bool) (l r : Nat) (w : Net) : Prop where
  final : (w.get s).final = some (l, r)
  done : (w.get s).done = true
  cmd : (w.get s).commanded = some (l, r)
  over : (w.get s).over = false

def Reaches (s : Bool) (l r : Nat) (w : Net) : Prop := ∃ evs : List Ev, (∀ ev ∈ evs, ev.Quiet) ∧ Fin s l r (w.steps evs)

theorem Reaches.step {s : Bool} {l r : Nat} {ev : Ev} (hq : ev.Quiet) (h : Reaches s l r (w.step ev)) : Reaches s l r w := by
  obtain ⟨evs, h1, h2⟩ := h
  refine ⟨ev :: evs, ?_, h2⟩
  intro e he
  rcases List.mem_cons.mp he with rfl | he
  · exact hq
  · exact h1 e he

theorem Fin.reaches {s : Bool} {l r : Nat} (h : Fin s l r w) : Reaches s l r w := ⟨[], by simp, h⟩

theorem Net.done_steps {w : Net} {s : Bool} (h : (w.get s).done = true) (evs : List Ev) : ((w.steps evs).get s).done = true := by
  induction evs generalizing w with
  | nil => exact h
  | cons e evs ih => exact ih (Net.done_step h e)

theorem Reaches.canReturn {s : Bool} {l r : Nat} (h : Reaches s l r w) : CanReturn w s (l, r) := by
  obtain ⟨evs, h1, h2⟩ := h
  refine ⟨evs ++ [.finish s], ?_, ?_⟩
  · intro e he
    rcases List.mem_append.mp he with he | he
    · exact h1 e he
    · rw [List.mem_singleton.mp he]
      trivial
  · rw [Net.steps_append]
    show (((w.steps evs).step (.finish s)).get s).result = _
    simp only [Net.step]
    rw [if_neg (by rw [h2.done, h2.over]; simp), h2.cmd]
    simp [h2.final]

/-- What is known of an endpoint that is told. -/
structure IsTold (s : Bool) (l r : Nat) (w : Net) : Prop where
  cmd : (w.get s).commanded = some (l, r)
  going : (w.get s).done = false

theorem IsTold.uniq (hm : Matching R) (hr : ReachR R n m w) {s : Bool} {l r : Nat} (h : IsTold s l r w) {i : Nat}
    (hi : (i, r) ∈ (w.get s).enq) : i = l := by
  obtain ⟨p, hp, e⟩ := hr.inv.got (.inl h.cmd)
  obtain ⟨q, hq, e'⟩ := (hr.inv.half s).enq i r hi
  have h1 := (hr.inv.half s).rel l p r hp e
  have h2 := (hr.inv.both s).2.rel r q i hq e'
  have h1 : Rel R (!s) r l := by
    cases s <;> exact h1
  exact hm.rel h2 h1

theorem IsTold.tick (hm : Matching R) (hr : ReachR R n m w) {s : Bool} {l r : Nat} (h : IsTold s l r w)
    (hl : (l, r) ∈ (w.get s).enq ∨ ∃ p : Punch, (w.get s).ps[l]? = some p ∧ p.st = .listed) : Fin s l r (w.step (.tick s)) := by
  have ho : (w.get s).over = false := by
    cases hx : (w.get s).over with
    | false => rfl
    | true =>
      have := (hr.alive s).over hx
      rw [h.going] at this
      cases this
  have hf : (w.get s).final = none := (hr.inv.half s).final h.going
  simp only [Net.step]
  rw [if_neg (by rw [h.going, (hr.alive s).poller]; simp), h.cmd]
  dsimp only
  split
  · rename_i sock hs
    obtain ⟨i, j⟩ := sock
    have hj : j = r := by simpa using List.find?_some hs
    subst hj
    have := h.uniq hm hr (List.mem_reverse.mp (List.mem_of_find?_eq_some hs))
    subst this
    rw [Node.submit_of (by exact hf)]
    constructor <;> simp [h.cmd, ho]
  · rename_i hs
    rcases hl with hl | ⟨p, hp, hst⟩
    · rw [List.find?_eq_none] at hs
      have := hs (l, r) (List.mem_reverse.mpr hl)
      simp at this
    · obtain ⟨p0, hp0, hgot⟩ := hr.inv.got (.inl h.cmd)
      rw [hp] at hp0
      cases hp0
      rw [hp]
      dsimp only
      rw [if_pos ⟨hst, hgot⟩, Node.submit_of (by exact hf)]
      constructor <;> simp [h.cmd, ho, Node.setP]

theorem IsTold.ticks (hm : Matching R) (hr : ReachR R n m w) {s : Bool} {l r : Nat} (h : IsTold s l r w)
    (hl : (l, r) ∈ (w.get s).enq ∨ ∃ p : Punch, (w.get s).ps[l]? = some p ∧ p.st = .listed) : Reaches s l r w :=
  Reaches.step (ev := .tick s) trivial (h.tick hm hr hl).reaches

theorem IsTold.rebuild (hm : Matching R) {s : Bool} {l r : Nat} (k : Nat) : ∀ {w : Net}, ReachR R n m w → IsTold s l r w →
    (w.get s).rebuilt.length = k → some (l, r) ∈ (w.get s).rebuilt → Reaches s l r w := by
  induction k with
  | zero =>
    intro w hr h hk hmem
    rw [List.length_eq_zero_iff.mp hk] at hmem
    cases hmem
  | succ k ih =>
    intro w hr h hk hmem
    cases hreb : (w.get s).rebuilder with
    | false =>
      obtain ⟨p0, hp0, -⟩ := hr.inv.got (.inl h.cmd)
      exact h.ticks hm hr (.inr ⟨p0, hp0, (hr.told hm s).rebuilder hreb h.going l p0 hp0⟩)
    | true =>
      have ho : (w.get s).over = false := by
        cases hx : (w.get s).over with
        | false => rfl
        | true =>
          have := (hr.alive s).over hx
          rw [h.going] at this
          cases this
      have hf : (w.get s).final = none := (hr.inv.half s).final h.going
      cases hq : (w.get s).rebuilt with
      | nil => rw [hq] at hk; cases hk
      | cons e rest =>
        rw [hq] at hk hmem
        cases e with
        | some sock =>
          obtain ⟨i, j⟩ := sock
          have hkl := (hr.inv.half s).killed _ ((hr.inv.half s).rebuilt i j (by rw [hq]; exact List.mem_cons_self ..))
          rw [h.cmd] at hkl
          cases hkl
          refine Reaches.step (ev := .rebuild s) trivial (Fin.reaches ?_)
          simp only [Net.step]
          rw [if_neg (by rw [h.going, hreb]; simp), hq]
          dsimp only
          rw [Node.submit_of (by exact hf)]
          constructor <;> simp [h.cmd, ho]
        | none =>
          refine Reaches.step (ev := .rebuild s) trivial ?_
          have hr' := hr.step (.rebuild s) trivial
          have he : (w.step (.rebuild s)).get s = { w.get s with rebuilt := rest, rebuilder := !(w.get s).allListed } := by
            simp only [Net.step]
            rw [if_neg (by rw [h.going, hreb]; simp), hq]
            dsimp only
            rw [Net.get_set]
          refine ih hr' ⟨by rw [he]; exact h.cmd, by rw [he]; exact h.going⟩ (by rw [he]; simpa using hk) ?_
          rw [he]
          exact (List.mem_cons.mp hmem).resolve_left (by simp)

/-- The resolver is not in the middle of something. -/
theorem IsTold.ready (hm : Matching R) (hr : ReachR R n m w) {s : Bool} {l r : Nat} (h : IsTold s l r w)
    (hres : (w.get s).res = .idle ∨ (w.get s).res = .ended ∨ (w.get s).res = .dead) : Reaches s l r w := by
  have hi := hr.inv
  have ht := hr.told hm s
  obtain ⟨p, hp, hgot⟩ := hi.got (.inl h.cmd)
  have hidle : p.st ≠ .taken → p.st ≠ .listed → (w.get s).res = .idle := by
    intro h1 h2
    rcases hres with e | e | e
    · exact e
    · rcases ht.ended e h.going with e' | e'
      · rcases e' l p hp with e' | e'
        · exact absurd e' h1
        · exact absurd e' h2
      · rw [h.cmd] at e'
        cases e'.2
    · exact absurd (ht.dead e l p hp) h2
  cases hst : p.st with
  | listed => exact h.ticks hm hr (.inr ⟨p, hp, hst⟩)
  | taken =>
    rcases ht.cmd l r p h.cmd h.going hp (.inl hst) with e | e
    · exact h.ticks hm hr (.inl e)
    · exact h.rebuild hm _ hr rfl e
  | skipped =>
    rcases ht.cmd l r p h.cmd h.going hp (.inr hst) with e | e
    · exact h.ticks hm hr (.inl e)
    · exact h.rebuild hm _ hr rfl e
  | failed =>
    have hid := hidle (by rw [hst]; simp) (by rw [hst]; simp)
    refine Reaches.step (ev := .next s l) trivial ?_
    have hr' := hr.step (.next s l) trivial
    have he : ((w.step (.next s l)).get s).commanded = (w.get s).commanded ∧ ((w.step (.next s l)).get s).done = (w.get s).done ∧
        ((w.step (.next s l)).get s).ps = ((w.get s).setP l { p with st := .listed }).ps := by
      simp only [Net.step]
      rw [if_neg (by rw [h.going, hid]; simp), hp]
      dsimp only
      rw [hst]
      dsimp only
      repeat' split
      all_goals simp [Node.setP]
    have h' : IsTold s l r (w.step (.next s l)) := ⟨by rw [he.1]; exact h.cmd, by rw [he.2.1]; exact h.going⟩
    refine h'.ticks hm hr' (.inr ⟨{ p with st := .listed }, ?_, rfl⟩)
    rw [he.2.2, get_setP hp, if_pos rfl]
  | okay j =>
    have hid := hidle (by rw [hst]; simp) (by rw [hst]; simp)
    have hj : j = r := hi.match hm ⟨p, hp, hgot⟩ ((hi.half s).okay l p j hp hst)
    subst hj
    refine Reaches.step (ev := .next s l) trivial ?_
    have hr' := hr.step (.next s l) trivial
    have he : ((w.step (.next s l)).get s).commanded = (w.get s).commanded ∧ ((w.step (.next s l)).get s).done = (w.get s).done ∧
        ((w.step (.next s l)).get s).enq = (w.get s).enq ++ [(l, j)] := by
      simp only [Net.step]
      rw [if_neg (by rw [h.going, hid]; simp), hp]
      dsimp only
      rw [hst]
      dsimp only
      simp [Node.setP]
    have h' : IsTold s l j (w.step (.next s l)) := ⟨by rw [he.1]; exact h.cmd, by rw [he.2.1]; exact h.going⟩
    refine h'.ticks hm hr' (.inl ?_)
    rw [he.2.2]
    simp
  | running =>
    have ho : (w.get s).over = false := by
      cases hx : (w.get s).over with
      | false => rfl
      | true =>
        have := (hr.alive s).over hx
        rw [h.going] at this
        cases this
    by_cases hmem : (l, r) ∈ (w.get s).enq
    · exact h.ticks hm hr (.inl hmem)
    · have hno : (w.get s).enq.reverse.find? (fun e => decide (e.2 = r)) = none := by
        rw [List.find?_eq_none]
        intro e hem
        obtain ⟨i, j⟩ := e
        intro hj
        have hj : j = r := by simpa using hj
        subst hj
        have := h.uniq hm hr (List.mem_reverse.mp hem)
        subst this
        exact hmem (List.mem_reverse.mp hem)
      have hnl : (w.get s).allListed = false := by
        cases hx : (w.get s).allListed with
        | false => rfl
        | true =>
          have := (allListed_iff _).mp hx l p hp
          rw [hst] at this
          cases this
      refine Reaches.step (ev := .tick s) trivial ?_
      have hr' := hr.step (.tick s) trivial
      have he : (w.step (.tick s)).get s = { w.get s with killed := some (l, r), enq := [] } := by
        simp only [Net.step]
        rw [if_neg (by rw [h.going, (hr.alive s).poller]; simp), h.cmd]
        dsimp only
        rw [hno]
        dsimp only
        rw [hp]
        dsimp only
        rw [if_neg (by rw [hst]; simp), if_neg (by
          intro e
          have e : (w.get s).allListed = true := e
          rw [hnl] at e
          cases e)]
        simp
      refine Reaches.step (ev := .kill s l) trivial ?_
      have hr'' := hr'.step (.kill s l) trivial
      have he' : ((w.step (.tick s)).step (.kill s l)).get s =
          { ({ w.get s with killed := some (l, r), enq := [] } : Node).setP l { p with st := .skipped } with
            rebuilt := (w.get s).rebuilt ++ [some (l, r)] } := by
        generalize hw : w.step (.tick s) = w1 at *
        simp only [Net.step]
        rw [he]
        dsimp only
        rw [hp]
        dsimp only
        rw [if_pos hst, if_pos rfl, if_pos hgot, Net.get_set]
      exact IsTold.rebuild hm _ hr'' ⟨by rw [he']; exact h.cmd, by rw [he']; exact h.going⟩ rfl (by rw [he']; simp)

theorem IsTold.reaches (hm : Matching R) (hr : ReachR R n m w) {s : Bool} {l r : Nat} (h : IsTold s l r w) : Reaches s l r w := by
  have hi := hr.inv
  have hnh : ¬ (w.get s).res.Holds := by
    intro e
    have := (hi.both s).free e
    rw [h.cmd] at this
    cases this
  cases hres : (w.get s).res with
  | idle => exact h.ready hm hr (.inl hres)
  | ended => exact h.ready hm hr (.inr (.inl hres))
  | dead => exact h.ready hm hr (.inr (.inr hres))
  | holding i j => rw [hres] at hnh; exact absurd trivial hnh
  | sent i j => rw [hres] at hnh; exact absurd trivial hnh
  | pushed i j =>
    refine Reaches.step (ev := .check s) trivial ?_
    have he : (w.step (.check s)).get s = { w.get s with res := .idle } := by
      simp only [Net.step]
      rw [hres]
      dsimp only
      rw [Net.get_set, h.cmd]
      rfl
    exact IsTold.ready hm (hr.step (.check s) trivial) ⟨by rw [he]; exact h.cmd, by rw [he]; exact h.going⟩ (.inl (by rw [he]))
  | waiting i j =>
    have key : ∀ {w : Net}, ReachR R n m w → IsTold s l r w → (w.get s).res = .waiting i j → w.value = some (l, r) →
        w.lock = none → Reaches s l r w := by
      intro w hr h hres hv hl
      refine Reaches.step (ev := .lock s) trivial ?_
      have he : (w.step (.lock s)).get s = { w.get s with commanded := some (l, r), res := .idle } := by
        simp only [Net.step]
        rw [hres]
        dsimp only
        rw [if_neg (by simp [hl]), hv]
        dsimp only
        rw [Net.get_set]
      exact IsTold.ready hm (hr.step (.lock s) trivial) ⟨by rw [he], by rw [he]; exact h.going⟩ (.inl (by rw [he]))
    rcases (hi.half s).cmds l r (.inl h.cmd) with e | e | e
    · refine key hr h hres e.1 ?_
      cases hl : w.lock with
      | none => rfl
      | some t =>
        have hh : ¬ (w.get (!s)).res.Holds := by
          intro hh
          have := (hi.both s).2.val hh
          rw [e.1] at this
          cases this
        by_cases ht : t = s
        · subst ht
          exact absurd ((hi.half t).lockd.mp hl) hnh
        · have : t = !s := by
            cases t <;> cases s <;> simp_all
          subst this
          exact absurd ((hi.both s).2.lockd.mp hl) hh
    · have hwin := hr.step (.win (!s)) trivial
      refine Reaches.step (ev := .win (!s)) trivial ?_
      have hl : w.lock = some (!s) := (hi.both s).2.lockd.mpr (by rw [e]; trivial)
      have hd := hi.notDone (s := !s) (by rw [e]; simp)
      have hf := (hi.both s).2.final hd
      have hc := (hi.both (!s)).free (by rw [e]; trivial)
      have hmm := (hi.both s).2.mem r l hc (by rw [e]; exact ⟨rfl, rfl⟩)
      have hfind : ∃ sock, (w.get (!s)).enq.reverse.find? (fun x => decide (x.1 = r)) = some sock := by
        cases hx : (w.get (!s)).enq.reverse.find? (fun x => decide (x.1 = r)) with
        | some v => exact ⟨v, rfl⟩
        | none =>
          rw [List.find?_eq_none] at hx
          have := hx (r, l) (List.mem_reverse.mpr hmm)
          simp at this
      obtain ⟨sock, hs⟩ := hfind
      have he : (w.step (.win (!s))).get s = w.get s ∧ (w.step (.win (!s))).lock = none ∧ (w.step (.win (!s))).value = some (l, r) := by
        simp only [Net.step]
        rw [e]
        dsimp only
        rw [hs]
        dsimp only
        refine ⟨?_, by simp [hl], rfl⟩
        rw [Net.get_mk, Net.get_release, Net.get_set'']
      exact key hwin ⟨by rw [he.1]; exact h.cmd, by rw [he.1]; exact h.going⟩ (by rw [he.1]; exact hres) he.2.2 he.2.1
    · rw [h.going] at e
      cases e.1

end Verif.HolePunch

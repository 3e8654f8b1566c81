import Verif.GroupChan.Lemmas
/-
The invariants: a channel is opened only while none is open.
-/
namespace Verif.GroupChan

/-- No signal of the list opens a channel while one is open. -/
def calm (isOpen : Bool) : List Sig → Bool
  | [] => true
  | g :: l => !(isOpen && opens g) && calm (if opens g then true else if ends g then false else isOpen) l

theorem settled_snoc (b : Bool) (l : List Sig) (g : Sig) :
    settled b (l ++ [g]) = if opens g then true else if ends g then false else settled b l := by
  induction l generalizing b with
  | nil => rfl
  | cons x l ih => simp only [List.cons_append, settled, ih]

theorem calm_snoc (b : Bool) (l : List Sig) (g : Sig) :
    calm b (l ++ [g]) = (calm b l && !(settled b l && opens g)) := by
  induction l generalizing b with
  | nil => simp [calm, settled]
  | cons x l ih => simp only [List.cons_append, settled, calm, ih, Bool.and_assoc]

structure Inv (s : State) : Prop where
  alive : s.dead = false
  newest : ∀ n, s.reg = some n → n + 1 = s.hs.length
  gone : s.ex = false → s.mem = false
  queues : ∀ h ∈ s.hs, Req.keyPackage ∉ h.q
  fixed : s.owner = true → .welcome ∉ s.down ∧ s.kps = 0 ∧ .keyPackage ∉ s.up
  alt : s.owner = true → calm s.reg.isSome s.down = true ∧ (settled s.reg.isSome s.down = true → s.ex = true)
  noCreate : s.owner = false → .createResp true ∉ s.down
  count : s.owner = false →
    s.hs.length + s.down.count .welcome + s.kps + s.up.count .keyPackage ≤ if s.cgka then 1 else 0

theorem inv_start (o p : Bool) (c : Nat) : Inv (start o p c) := by
  constructor <;> simp [start, calm, settled]

theorem opens_iff (g : Sig) : opens g = true ↔ g = .createResp true ∨ g = .welcome := by
  cases g with
  | createResp ok => cases ok <;> simp [opens]
  | _ => simp [opens]

theorem mem_set {l : List Handle} {n : Nat} {x h : Handle} (hh : h ∈ l.set n x) : h ∈ l ∨ h = x :=
  List.mem_or_eq_of_mem_set hh

/-- A signal that opens nothing is appended for an owner, and the group is as it was or the signal ends. -/
theorem alt_snoc {b ex ex' : Bool} {l : List Sig} {g : Sig} (h : calm b l = true ∧ (settled b l = true → ex = true))
    (ho : opens g = false) (he : ends g = true ∨ (ex = true → ex' = true)) :
    calm b (l ++ [g]) = true ∧ (settled b (l ++ [g]) = true → ex' = true) := by
  rw [calm_snoc, settled_snoc]
  refine ⟨by simp [h.1, ho], ?_⟩
  simp only [ho, Bool.false_eq_true, if_false]
  rcases he with he | he
  · simp [he]
  · by_cases h' : ends g = true
    · simp [h']
    · simp only [h']; exact fun x => he (h.2 x)

theorem inv_open {s : State} (h : Inv s) {g : Sig} {rest : List Sig} (hw : s.down = g :: rest) (hg : opens g = true) :
    s.reg = none ∧ (g = .welcome → s.cgka = true) := by
  constructor
  · cases ho : s.owner with
    | true =>
      have := (h.alt ho).1
      rw [hw] at this
      simp only [calm, hg, Bool.and_true, Bool.and_eq_true, Bool.not_eq_true', Option.isSome_eq_false_iff,
        Option.isNone_iff_eq_none] at this
      exact this.1
    | false =>
      rcases (opens_iff g).mp hg with rfl | rfl
      · exact absurd (by rw [hw]; simp) (h.noCreate ho)
      · cases hr : s.reg with
        | none => rfl
        | some n =>
          have h1 := h.count ho
          have h2 := h.newest n hr
          rw [hw] at h1; simp only [List.count_cons_self] at h1
          split at h1 <;> omega
  · rintro rfl
    cases ho : s.owner with
    | true => exact absurd (by rw [hw]; simp) (h.fixed ho).1
    | false =>
      have h1 := h.count ho
      rw [hw] at h1; simp only [List.count_cons_self] at h1
      split at h1
      · assumption
      · omega

theorem inv_receive {s : State} (h : Inv s) {g : Sig} {rest : List Sig} (hw : s.down = g :: rest) :
    Inv (handle { s with down := rest } g).1 := by
  obtain ⟨h1, h2, h3, h4, h5, h6, h7, h8⟩ := h
  have hi : Inv s := ⟨h1, h2, h3, h4, h5, h6, h7, h8⟩
  have hopen := inv_open hi (g := g) hw
  rw [hw] at h5 h6 h7 h8
  have h5' : s.owner = true → .welcome ∉ rest ∧ s.kps = 0 ∧ .keyPackage ∉ s.up := fun ho =>
    ⟨fun hm => (h5 ho).1 (List.mem_cons_of_mem _ hm), (h5 ho).2⟩
  have h7' : s.owner = false → .createResp true ∉ rest := fun ho hm => h7 ho (List.mem_cons_of_mem _ hm)
  have hcw : rest.count .welcome ≤ (g :: rest).count .welcome := List.count_le_count_cons
  have h8' : s.owner = false → s.hs.length + rest.count .welcome + s.kps + s.up.count .keyPackage ≤ if s.cgka then 1 else 0 :=
    fun ho => by have := h8 ho; omega
  simp only [calm, settled, Bool.and_eq_true] at h6
  have hplain : opens g = false → ends g = false → Inv { s with down := rest } := fun ho he =>
    ⟨h1, h2, h3, h4, h5', fun o => ⟨by simpa [ho, he] using (h6 o).1.2, by simpa [ho, he] using (h6 o).2⟩, h7', h8'⟩
  have hend : opens g = false → ends g = true → Inv { s with down := rest, reg := none } := fun ho he =>
    ⟨h1, by simp, h3, h4, h5', fun o => ⟨by simpa [ho, he] using (h6 o).1.2, by simpa [ho, he] using (h6 o).2⟩, h7', h8'⟩
  have hopen' : opens g = true → Inv (openChannel { s with down := rest }) := by
    intro ho
    have hr := (hopen ho).1
    simp only [openChannel, hr, Option.isSome_none, Bool.false_eq_true, if_false]
    refine ⟨h1, by simp, h3, ?_, h5', ?_, h7', ?_⟩
    · intro x hx
      rcases List.mem_append.mp hx with hx | hx
      · exact h4 x hx
      · rw [List.mem_singleton] at hx; subst hx; simp
    · intro o; exact ⟨by simpa [ho] using (h6 o).1.2, by simpa [ho] using (h6 o).2⟩
    · intro o
      have := h8 o
      rcases (opens_iff g).mp ho with rfl | rfl
      · exact absurd (by simp) (h7 o)
      · simp only [List.count_cons_self] at this
        simp only [List.length_append, List.length_singleton]; omega
  cases g with
  | createResp ok =>
    cases ok with
    | true => exact hopen' rfl
    | false => exact hplain rfl rfl
  | acceptResp ok =>
    have hp := hplain rfl rfl
    simp only [handle]
    split
    · rename_i hc
      simp only [Bool.and_eq_true, Bool.not_eq_true'] at hc
      split
      · exact hp
      · rename_i hk
        refine ⟨h1, h2, h3, h4, ?_, hp.alt, h7', ?_⟩
        · intro o; rw [hc.2] at o; cases o
        · intro o
          have := h8' o
          rw [if_neg (by simpa using hk)] at this
          simp only [List.count_append, List.count_singleton_self, if_true]
          omega
    · exact hp
  | endResp ok => exact hend rfl rfl
  | leaveResp ok => exact hend rfl rfl
  | disconnected => exact hend rfl rfl
  | welcome =>
    have hk := (hopen rfl).2 rfl
    have hh : (handle { s with down := rest } .welcome).1 = openChannel { s with down := rest } := by simp [handle, hk]
    rw [hh]
    exact hopen' rfl
  | other x => exact hplain rfl rfl

theorem count_snoc_ne {l : List Sig} {g : Sig} (h : g ≠ .welcome) : (l ++ [g]).count .welcome = l.count .welcome := by
  simp [List.count_append, h]

/-- The server answers with a signal that opens nothing. -/
theorem inv_answer {s : State} (h : Inv s) (g : Sig) (ho : opens g = false) (ex mem pend : Bool) (hm : ex = false → mem = false)
    (he : ends g = true ∨ (s.ex = true → ex = true)) :
    Inv { s with ex := ex, mem := mem, pend := pend, down := s.down ++ [g] } := by
  have hw : g ≠ .welcome := by rintro rfl; simp [opens] at ho
  have hc : g ≠ .createResp true := by rintro rfl; simp [opens] at ho
  refine ⟨h.alive, h.newest, hm, h.queues, ?_, ?_, ?_, ?_⟩
  · intro o
    obtain ⟨a, b, c⟩ := h.fixed o
    exact ⟨by simp [a, Ne.symm hw], b, c⟩
  · exact fun o => alt_snoc (h.alt o) ho he
  · intro o; simp [h.noCreate o, Ne.symm hc]
  · intro o; simp only [count_snoc_ne hw]; exact h.count o

theorem inv_serve {s : State} (h : Inv s) {r : Req} {rest : List Req} (hu : s.up = r :: rest) :
    Inv (serveReq { s with up := rest } r) := by
  have h0 : Inv { s with up := rest } := by
    refine ⟨h.alive, h.newest, h.gone, h.queues, ?_, h.alt, h.noCreate, ?_⟩
    · intro o
      obtain ⟨a, b, c⟩ := h.fixed o
      rw [hu] at c
      exact ⟨a, b, fun hm => c (List.mem_cons_of_mem _ hm)⟩
    · intro o
      have := h.count o
      rw [hu] at this
      have hc : rest.count .keyPackage ≤ (r :: rest).count .keyPackage := List.count_le_count_cons
      exact Nat.le_trans (by simp only []; omega) this
  cases r with
  | create =>
    simp only [serveReq]
    split
    · rename_i ho
      split
      · exact inv_answer h0 (.createResp false) rfl s.ex s.mem s.pend h.gone (.inr id)
      · rename_i hx
        have hs : settled s.reg.isSome s.down = false := by
          cases hh : settled s.reg.isSome s.down with
          | false => rfl
          | true => exact absurd ((h.alt ho).2 hh) (by simpa using hx)
        refine ⟨h.alive, h.newest, by simp, h.queues, ?_, ?_, ?_, ?_⟩
        · intro o
          obtain ⟨a, b, c⟩ := h0.fixed o
          exact ⟨by simp [a], b, c⟩
        · intro o
          simp only [calm_snoc, settled_snoc]
          simp [(h.alt ho).1, hs]
        · intro o; simp [ho] at o
        · intro o; simp [ho] at o
    · exact h0
  | requestJoin =>
    simp only [serveReq]
    split
    · split
      · rename_i hx _
        have := inv_answer h0 (.acceptResp true) rfl s.ex true true (by simp_all) (.inr id)
        exact this
      · exact ⟨h0.alive, h0.newest, h0.gone, h0.queues, h0.fixed, h0.alt, h0.noCreate, h0.count⟩
    · exact inv_answer h0 (.other 0) rfl s.ex s.mem s.pend h.gone (.inr id)
  | accept =>
    simp only [serveReq]
    split
    · rename_i hx
      exact inv_answer h0 (.acceptResp true) rfl s.ex true false (by simp_all) (.inr id)
    · exact inv_answer h0 (.acceptResp false) rfl s.ex s.mem s.pend h.gone (.inr id)
  | leave =>
    simp only [serveReq]
    split
    · exact inv_answer h0 (.leaveResp true) rfl s.ex false s.pend (by simp) (.inr id)
    · exact inv_answer h0 (.leaveResp false) rfl s.ex s.mem s.pend h.gone (.inr id)
  | endIt =>
    simp only [serveReq]
    split
    · exact inv_answer h0 (.endResp s.ex) rfl false false false (by simp) (.inl rfl)
    · exact h0
  | kick self =>
    simp only [serveReq]
    split
    · refine inv_answer h0 (.other 0) rfl s.ex _ s.pend ?_ (.inr id)
      intro hx; have := h.gone hx; simp [this]
    · exact h0
  | other x => exact inv_answer h0 (.other x) rfl s.ex s.mem s.pend h.gone (.inr id)
  | keyPackage =>
    simp only [serveReq]
    refine ⟨h.alive, h.newest, h.gone, h.queues, ?_, h.alt, h.noCreate, ?_⟩
    · intro o
      obtain ⟨a, b, c⟩ := h.fixed o
      rw [hu] at c; simp at c
    · intro o
      have := h.count o
      rw [hu] at this
      simp only [List.count_cons_self] at this
      exact Nat.le_trans (by simp only []; omega) this

theorem inv_hs {s : State} (h : Inv s) {n : Nat} {y : Handle} (hy : Req.keyPackage ∉ y.q) :
    Inv { s with hs := s.hs.set n y } := by
  refine ⟨h.alive, ?_, h.gone, ?_, h.fixed, h.alt, h.noCreate, ?_⟩
  · intro m hm; simp only [List.length_set]; exact h.newest m hm
  · intro z hz
    rcases mem_set hz with hz | rfl
    · exact h.queues z hz
    · exact hy
  · intro o; simp only [List.length_set]; exact h.count o

theorem inv_up {s : State} (h : Inv s) {r : Req} (hr : r ≠ .keyPackage) : Inv { s with up := s.up ++ [r] } := by
  refine ⟨h.alive, h.newest, h.gone, h.queues, ?_, h.alt, h.noCreate, ?_⟩
  · intro o
    obtain ⟨a, b, c⟩ := h.fixed o
    exact ⟨a, b, by simp [c, Ne.symm hr]⟩
  · intro o
    have := h.count o
    simp only [List.count_append, List.count_singleton]
    simp [hr]; exact this

theorem gate_kp {s : State} {r : Req} (h : gate s r = true) : r ≠ .keyPackage := by
  rintro rfl; simp [gate] at h

theorem inv_step (s : State) (a : Act) (h : Inv s) : Inv (step s a).1 := by
  have e := eff_step s a
  generalize (step s a).1 = s' at *
  generalize (step s a).2 = o at *
  cases e with
  | stay => exact h
  | create ho =>
    have := inv_up h (r := .create) (by simp)
    refine ⟨this.alive, this.newest, this.gone, this.queues, this.fixed, this.alt, this.noCreate, ?_⟩
    intro o; simp [ho] at o
  | send r ho hr => exact inv_up h (by rcases hr with rfl | rfl <;> simp)
  | put n x r hh hg hc =>
    refine inv_hs h ?_
    have := h.queues x (List.mem_of_getElem? hh)
    simp [this, Ne.symm (gate_kp hg)]
  | drop n x hh hv hc =>
    refine inv_hs h ?_
    have := h.queues x (List.mem_of_getElem? hh)
    simp [this]
  | lose n x hh hv hc => exact inv_hs h (h.queues x (List.mem_of_getElem? hh))
  | pump n x r rest hh hq hd =>
    have hk := h.queues x (List.mem_of_getElem? hh)
    rw [hq] at hk
    have h' := inv_hs h (n := n) (y := { x with q := rest }) (fun hm => hk (List.mem_cons_of_mem _ hm))
    exact inv_up h' (r := r) (by rintro rfl; simp at hk)
  | serve r rest hu => exact inv_serve h hu
  | receive g rest hd hw => exact inv_receive h hw
  | ownerCreate ho hx =>
    refine ⟨h.alive, h.newest, by simp, h.queues, h.fixed, ?_, h.noCreate, h.count⟩
    intro o; simp [ho] at o
  | ownerEnd ho hx =>
    cases hm : s.mem with
    | true =>
      simp only [if_true]
      have := inv_answer h .disconnected rfl false false false (by simp) (.inl rfl)
      exact this
    | false =>
      simp only [Bool.false_eq_true, if_false]
      refine ⟨h.alive, h.newest, by simp, h.queues, h.fixed, ?_, h.noCreate, h.count⟩
      intro o; simp [ho] at o
  | ownerGone ho =>
    refine ⟨h.alive, h.newest, by simp, h.queues, ?_, ?_, h.noCreate, ?_⟩
    · intro o; simp [ho] at o
    · intro o; simp [ho] at o
    · intro o
      have := h.count o
      show s.hs.length + s.down.count .welcome + 0 + s.up.count .keyPackage ≤ if s.cgka then 1 else 0
      omega
  | invite ho hx => exact inv_answer h (.other 0) rfl s.ex s.mem true h.gone (.inr id)
  | letIn ho hx => exact inv_answer h (.other 0) rfl s.ex true false (by simp [hx]) (.inr id)
  | kick ho hm => exact inv_answer h .disconnected rfl s.ex false s.pend (by simp) (.inl rfl)
  | welcome ho hk =>
    refine ⟨h.alive, h.newest, h.gone, h.queues, ?_, ?_, ?_, ?_⟩
    · intro o; simp [ho] at o
    · intro o; simp [ho] at o
    · intro o; simp [h.noCreate o]
    · intro o
      have := h.count o
      show s.hs.length + (s.down ++ [Sig.welcome]).count Sig.welcome + (s.kps - 1) + s.up.count .keyPackage ≤ if s.cgka then 1 else 0
      simp only [List.count_append, List.count_singleton_self]
      omega
  | post x hx hm => exact inv_answer h (.other x) rfl s.ex s.mem s.pend h.gone (.inr id)

theorem inv_run (o p : Bool) (c : Nat) (as : List Act) : Inv (run (start o p c) as) :=
  run_inv inv_step _ as (inv_start o p c)

end Verif.GroupChan

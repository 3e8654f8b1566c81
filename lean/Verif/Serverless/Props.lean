import Verif.Serverless.Lemmas

/-
C159: two attempts alone in a fresh room take opposite roles and connect. C160: what an open data channel is, with any
number of attempts.
-/
namespace Verif.Serverless

variable {H : Nat → List Nat} {s t : St} {as : List Act} {a b : Nat}

/-! ### C159 -/

theorem duo_run (hab : a ≠ b) (hk : participantKey (H a) ≠ participantKey (H b))
    (hs : determineIsServer (H a) (H b) = true) (ho : Only [a, b] as) (h : run H init as = some t) : Duo H a b t :=
  run_inv (I := Duo H a b) (P := fun x => x.who ∈ [a, b]) (fun _ _ _ hi hp hst => hi.step hab hk hs hp hst)
    as init t duo_init ho h

theorem hash_ne (hk : participantKey (H a) ≠ participantKey (H b)) : H a ≠ H b := fun e => hk (by rw [e])

theorem only_swap (ho : Only [a, b] as) : Only [b, a] as := by
  intro x hx
  have := ho x hx
  simp only [List.mem_cons, List.not_mem_nil, or_false] at this ⊢
  exact this.symm

/-- One of the two has the greater hash. -/
theorem duo_some (hab : a ≠ b) (hk : participantKey (H a) ≠ participantKey (H b)) (ho : Only [a, b] as)
    (h : run H init as = some t) :
    (determineIsServer (H a) (H b) = true ∧ determineIsServer (H b) (H a) = false ∧ Duo H a b t) ∨
      (determineIsServer (H b) (H a) = true ∧ determineIsServer (H a) (H b) = false ∧ Duo H b a t) := by
  rcases strLt_total (hash_ne hk) with hlt | hlt
  · exact Or.inr ⟨hlt, strLt_asymm hlt,
      duo_run (fun e => hab e.symm) (fun e => hk e.symm) hlt (only_swap ho) h⟩
  · exact Or.inl ⟨hlt, strLt_asymm hlt, duo_run hab hk hlt ho h⟩

/-- Two attempts that are alone in a fresh room find each other and nobody else, exactly one of them makes the offer, and
a data channel one of them holds leads to the other. (Missing for the full claim: rooms that others have used, see
`C161_counterexample_ghost`, `C162_counterexample_stale`, `C163_counterexample_third`.) -/
theorem C159_roles_partial (hab : a ≠ b) (hk : (H a).take 16 ≠ (H b).take 16) (ho : Only [a, b] as)
    (h : run H init as = some t) :
    (∀ x, found? (t.phase a) = some x → x = H b) ∧ (∀ x, found? (t.phase b) = some x → x = H a) ∧
      (∀ x y, side? H t a = some x → side? H t b = some y → x = !y) ∧
      (∀ srv p, link? (t.phase a) = some (srv, p) → p = b ∧ side? H t a = some srv) ∧
      (∀ srv p, link? (t.phase b) = some (srv, p) → p = a ∧ side? H t b = some srv) := by
  rcases duo_some hab hk ho h with ⟨h1, h2, hd⟩ | ⟨h1, h2, hd⟩
  all_goals
    have pa := hd.pa
    have pb := hd.pb
    refine ⟨?_, ?_, ?_, ?_, ?_⟩
    · rcases pa with e | e | e | e | e | e | e <;> rcases pb with f | f | f | ⟨m, f⟩ | ⟨m, f⟩ | f | f <;>
        simp [e, f, found?] <;> intro x hx <;> exact hx.symm
    · rcases pa with e | e | e | e | e | e | e <;> rcases pb with f | f | f | ⟨m, f⟩ | ⟨m, f⟩ | f | f <;>
        simp [e, f, found?] <;> intro x hx <;> exact hx.symm
    · rcases pa with e | e | e | e | e | e | e <;> rcases pb with f | f | f | ⟨m, f⟩ | ⟨m, f⟩ | f | f <;>
        simp [e, f, side?, found?, h1, h2]
    · rcases pa with e | e | e | e | e | e | e <;> rcases pb with f | f | f | ⟨m, f⟩ | ⟨m, f⟩ | f | f <;>
        simp [e, f, side?, found?, link?, h1, h2] <;> rintro _ _ rfl rfl <;> simp
    · rcases pa with e | e | e | e | e | e | e <;> rcases pb with f | f | f | ⟨m, f⟩ | ⟨m, f⟩ | f | f <;>
        simp [e, f, side?, found?, link?, h1, h2] <;> rintro _ _ rfl rfl <;> simp

/-- Steps an attempt can still make before its call returns. -/
def left : Phase → Nat
  | .idle => 7
  | .greeted => 6
  | .found _ => 5
  | .offered _ => 3
  | .applied _ _ _ => 2
  | .answering _ _ m => if m then 3 else 4
  | .waiting _ _ _ => 2
  | .opened _ _ _ => 1
  | .done _ _ _ => 0

theorem left_step {x : Act} (hab : a ≠ b) (hw : x.who ∈ [a, b]) (hp : Patient [x]) (hst : step H s x = some t) :
    left (t.phase a) + left (t.phase b) < left (s.phase a) + left (s.phase b) := by
  have hba : b ≠ a := fun e => hab e.symm
  have hp := hp x (by simp)
  obtain ⟨-, htr⟩ := tr_of_step hst
  simp only [List.mem_cons, List.not_mem_nil, or_false] at hw
  cases htr with
  | timeout _ => exact (hp.1 _ rfl).elim
  | leave _ _ => exact (hp.2 _ rfl).elim
  | @replied i their o m h =>
    rcases hw with e | e <;> simp only [Act.who] at e <;> subst e <;> cases m <;>
      simp [setPhase, hab, hba, h, left]
  | _ h =>
    rcases hw with e | e <;> simp only [Act.who] at e <;> subst e <;>
      simp [setPhase, hab, hba, h, left]

theorem left_run (hab : a ≠ b) : ∀ (as : List Act) (s t : St), Only [a, b] as → Patient as → run H s as = some t →
    as.length + (left (t.phase a) + left (t.phase b)) ≤ left (s.phase a) + left (s.phase b) := by
  intro as
  induction as with
  | nil => intro s t _ _ h; simp only [run, Option.some.injEq] at h; subst h; simp
  | cons x as ih =>
    intro s t ho hp h
    simp only [run] at h
    cases hx : step H s x with
    | none => rw [hx] at h; exact nomatch h
    | some u =>
      rw [hx] at h
      have h1 := left_step hab (ho x (by simp)) (fun y hy => hp y (by simp at hy; simp [hy])) hx
      have h2 := ih u t (fun y hy => ho y (by simp [hy])) (fun y hy => hp y (by simp [hy])) h
      simp only [List.length_cons]
      omega

theorem gone_run : ∀ (as : List Act) (s t : St), Patient as → run H s as = some t → t.gone = s.gone := by
  intro as
  induction as with
  | nil => intro s t _ h; simp only [run, Option.some.injEq] at h; rw [h]
  | cons x as ih =>
    intro s t hp h
    simp only [run] at h
    cases hx : step H s x with
    | none => rw [hx] at h; exact nomatch h
    | some u =>
      rw [hx] at h
      rw [ih u t (fun y hy => hp y (by simp [hy])) h]
      have hpx := hp x (by simp)
      obtain ⟨-, htr⟩ := tr_of_step hx
      cases htr with
      | timeout _ => exact (hpx.1 _ rfl).elim
      | leave _ _ => exact (hpx.2 _ rfl).elim
      | _ => rfl

theorem missed_run : ∀ (as : List Act) (s t : St), Prompt H s as → (∀ i, missed (s.phase i) = false) →
    run H s as = some t → ∀ i, missed (t.phase i) = false := by
  intro as
  induction as with
  | nil => intro s t _ hm h; simp only [run, Option.some.injEq] at h; rw [← h]; exact hm
  | cons x as ih =>
    intro s t hp hm h
    simp only [run] at h
    cases hx : step H s x with
    | none => rw [hx] at h; exact nomatch h
    | some u =>
      rw [hx] at h
      simp only [Prompt, hx] at hp
      refine ih u t hp.2 ?_ h
      intro i
      have hmi := hm i
      obtain ⟨-, htr⟩ := tr_of_step hx
      cases htr with
      | early h0 _ => exact (hp.1 _ rfl _ _ h0).elim
      | timeout _ => exact hm i
      | leave _ _ => exact hm i
      | @replied j _ _ _ h0 =>
        by_cases e : i = j
        · subst e; rw [h0] at hmi; simp [setPhase]; simpa [missed] using hmi
        · simpa [setPhase, e] using hmi
      | @greet j h0 =>
        by_cases e : i = j
        · simp [setPhase, e, missed]
        · simpa [setPhase, e] using hmi
      | @find j _ h0 =>
        by_cases e : i = j
        · simp [setPhase, e, missed]
        · simpa [setPhase, e] using hmi
      | @offer j _ h0 =>
        by_cases e : i = j
        · simp [setPhase, e, missed]
        · simpa [setPhase, e] using hmi
      | @apply j _ _ _ h0 =>
        by_cases e : i = j
        · simp [setPhase, e, missed]
        · simpa [setPhase, e] using hmi
      | @answer j _ _ h0 =>
        by_cases e : i = j
        · simp [setPhase, e, missed]
        · simpa [setPhase, e] using hmi
      | @up j _ _ h0 =>
        by_cases e : i = j
        · simp [setPhase, e, missed]
        · simpa [setPhase, e] using hmi
      | @event j _ _ h0 =>
        by_cases e : i = j
        · simp [setPhase, e, missed]
        · simpa [setPhase, e] using hmi
      | @finish j _ _ _ h0 =>
        by_cases e : i = j
        · simp [setPhase, e, missed]
        · simpa [setPhase, e] using hmi

theorem two_le {α : Type} {x y : α} {l : List α} (hx : x ∈ l) (hy : y ∈ l) (h : x ≠ y) : 2 ≤ l.length := by
  match l, hx, hy with
  | [z], hx, hy => simp at hx hy; exact (h (hx.trans hy.symm)).elim
  | _ :: _ :: _, _, _ => simp

/-- As long as not both calls have returned, some step can happen that is neither a deadline nor an early event. -/
theorem duo_go (hk : participantKey (H a) ≠ participantKey (H b)) (hs : determineIsServer (H a) (H b) = true)
    (hd : Duo H a b s) (hga : s.gone a = false) (hgb : s.gone b = false) (hm : missed (s.phase b) = false)
    (hn : ¬(s.phase a = .done (H b) true b ∧ s.phase b = .done (H a) false a)) :
    ∃ x, x.who ∈ [a, b] ∧ Patient [x] ∧ Prompt H s [x] ∧ step H s x ≠ none := by
  have hs' : determineIsServer (H b) (H a) = false := strLt_asymm hs
  have hne := hash_ne hk
  have goA : ∀ x u, x.who = a → Patient [x] → (∀ i, x ≠ .event i) → Tr H s x u →
      ∃ x, x.who ∈ [a, b] ∧ Patient [x] ∧ Prompt H s [x] ∧ step H s x ≠ none := by
    intro x u hw hp he htr
    have hst := step_of_tr (by rw [hw]; exact hga) htr
    refine ⟨x, by simp [hw], hp, ⟨fun i e => (he i e).elim, ?_⟩, by rw [hst]; simp⟩
    rw [hst]; trivial
  have goB : ∀ x u, x.who = b → Patient [x] → (∀ i, x = .event i → ∀ h o, s.phase i ≠ .answering h o false) →
      Tr H s x u → ∃ x, x.who ∈ [a, b] ∧ Patient [x] ∧ Prompt H s [x] ∧ step H s x ≠ none := by
    intro x u hw hp he htr
    have hst := step_of_tr (by rw [hw]; exact hgb) htr
    refine ⟨x, by simp [hw], hp, ⟨he, ?_⟩, by rw [hst]; simp⟩
    rw [hst]; trivial
  have len : (participantKey (H a), H a) ∈ s.room.participants → (participantKey (H b), H b) ∈ s.room.participants →
      2 ≤ s.room.participants.length := fun h1 h2 => two_le h1 h2 (fun e => hk (congrArg Prod.fst e))
  unfold Duo at hd
  rcases hd.pa with e | e | e | e | e | e | e
  · exact goA (.greet a) _ rfl (by simp [Patient]) (by simp) (.greet e)
  · rcases hd.pb with f | f | f | ⟨m, f⟩ | ⟨m, f⟩ | f | f
    · exact goB (.greet b) _ rfl (by simp [Patient]) (by simp) (.greet f)
    · have hkp := hd.keep (by rw [e]; simp [lvl]) (by rw [f]; simp [lvl])
      have h1 := hkp.1 (by rw [e]; simp [lvl])
      have h2 := hkp.2.1 (by rw [f]; simp [lvl])
      exact goA (.find a (H b)) _ rfl (by simp [Patient]) (by simp)
        (.find e (len h1 h2) (List.mem_map.mpr ⟨_, h2, rfl⟩) (fun e => hne e.symm))
    · have hkp := hd.keep (by rw [e]; simp [lvl]) (by rw [f]; simp [lvl])
      have h1 := hkp.1 (by rw [e]; simp [lvl])
      have h2 := hkp.2.1 (by rw [f]; simp [lvl])
      exact goA (.find a (H b)) _ rfl (by simp [Patient]) (by simp)
        (.find e (len h1 h2) (List.mem_map.mpr ⟨_, h2, rfl⟩) (fun e => hne e.symm))
    all_goals
      have h3 := hd.b3 (by rw [f]; simp [lvl])
      rw [e] at h3
      simp [lvl] at h3
  · exact goA (.offer a) _ rfl (by simp [Patient]) (by simp) (.offer e hs)
  · rcases hd.pb with f | f | f | ⟨m, f⟩ | ⟨m, f⟩ | f | f
    · exact goB (.greet b) _ rfl (by simp [Patient]) (by simp) (.greet f)
    · have hkp := hd.keep (by rw [e]; simp [lvl]) (by rw [f]; simp [lvl])
      have h1 := hkp.1 (by rw [e]; simp [lvl])
      have h2 := hkp.2.1 (by rw [f]; simp [lvl])
      exact goB (.find b (H a)) _ rfl (by simp [Patient]) (by simp)
        (.find f (len h1 h2) (List.mem_map.mpr ⟨_, h1, rfl⟩) hne)
    · have hkp := hd.keep (by rw [e]; simp [lvl]) (by rw [f]; simp [lvl])
      exact goB (.answer b) _ rfl (by simp [Patient]) (by simp)
        (.answer f hs' (hkp.2.2.1 (by rw [e]; simp [lvl])))
    · have hkp := hd.keep (by rw [e]; simp [lvl]) (by rw [f]; simp [lvl])
      exact goA (.apply a) _ rfl (by simp [Patient]) (by simp) (.apply e (hkp.2.2.2 (by rw [f]; simp [lvl])))
    · have hkp := hd.keep (by rw [e]; simp [lvl]) (by rw [f]; simp [lvl])
      exact goA (.apply a) _ rfl (by simp [Patient]) (by simp) (.apply e (hkp.2.2.2 (by rw [f]; simp [lvl])))
    all_goals
      have h3 := hd.b5 (by rw [f]; simp [lvl])
      rw [e] at h3
      simp [lvl] at h3
  · have h4 := hd.a4 (by rw [e]; simp [lvl])
    refine goA (.up a) _ rfl (by simp [Patient]) (by simp) (.up e ?_)
    rcases hd.pb with f | f | f | ⟨m, f⟩ | ⟨m, f⟩ | f | f <;> rw [f] at h4 <;> simp [lvl] at h4 <;>
      simp [endUp, f, hgb]
  · exact goA (.finish a) _ rfl (by simp [Patient]) (by simp) (.finish e)
  · have h4 := hd.a4 (by rw [e]; simp [lvl])
    rcases hd.pb with f | f | f | ⟨m, f⟩ | ⟨m, f⟩ | f | f
    · rw [f] at h4; simp [lvl] at h4
    · rw [f] at h4; simp [lvl] at h4
    · rw [f] at h4; simp [lvl] at h4
    · exact goB (.replied b) _ rfl (by simp [Patient]) (by simp) (.replied f)
    · rw [f] at hm
      simp only [missed] at hm
      subst hm
      refine goB (.event b) _ rfl (by simp [Patient]) (fun i hi h o hc => ?_) (.event f (by simp [alphaUp, e, hga]))
      cases hi
      rw [f] at hc
      exact nomatch hc
    · exact goB (.finish b) _ rfl (by simp [Patient]) (by simp) (.finish f)
    · exact (hn ⟨e, f⟩).elim

/-- Two attempts that are alone in a fresh room connect: without deadlines and without an early event they make at most
14 steps, and when no more can be made both calls have returned a connection to the other, one as the server and one
as the client. (Missing for the full claim: an early event, see `C164_counterexample_missed`.) -/
theorem C159_connects_partial (hab : a ≠ b) (hk : (H a).take 16 ≠ (H b).take 16) (ho : Only [a, b] as)
    (hp : Patient as) (hq : Prompt H init as) (h : run H init as = some t) :
    as.length ≤ 14 ∧
      ((∀ x, x.who ∈ [a, b] → Patient [x] → Prompt H t [x] → step H t x = none) →
        ∃ srv, t.phase a = .done (H b) srv b ∧ t.phase b = .done (H a) (!srv) a) := by
  refine ⟨?_, fun hend => ?_⟩
  · have := left_run hab as init t ho hp h
    simp only [init, left] at this
    omega
  have hg := gone_run as init t hp h
  have hga : ∀ i, t.gone i = false := by intro i; rw [hg]; rfl
  have hm := missed_run as init t hq (fun _ => rfl) h
  rcases duo_some hab hk ho h with ⟨h1, h2, hd⟩ | ⟨h1, h2, hd⟩
  · by_cases hn : t.phase a = .done (H b) true b ∧ t.phase b = .done (H a) false a
    · exact ⟨true, hn⟩
    · obtain ⟨x, hw, hx, hy, hz⟩ := duo_go hk h1 hd (hga a) (hga b) (hm b) hn
      exact (hz (hend x hw hx hy)).elim
  · by_cases hn : t.phase b = .done (H a) true a ∧ t.phase a = .done (H b) false b
    · exact ⟨false, hn.2, hn.1⟩
    · obtain ⟨x, hw, hx, hy, hz⟩ := duo_go (fun e => hk e.symm) h1 hd (hga b) (hga a) (hm a) hn
      refine (hz (hend x ?_ hx hy)).elim
      simp only [List.mem_cons, List.not_mem_nil, or_false] at hw ⊢
      exact hw.symm

/-- Such a run: attempt 7 has the greater hash. -/
example : ∃ t, run (fun i => [i]) init [.greet 5, .greet 7, .find 5 [7], .find 7 [5], .offer 7, .answer 5, .replied 5,
    .apply 7, .event 5, .up 7, .finish 7, .finish 5] = some t ∧ t.phase 7 = .done [5] true 5 ∧
    t.phase 5 = .done [7] false 7 := ⟨_, rfl, rfl, rfl⟩

/-! ### C160 -/

/-- Whose offer an attempt has answered. -/
def answered : Phase → Option Nat
  | .answering _ o _ | .waiting _ o _ | .opened _ false o | .done _ false o => some o
  | _ => none

/-- The role an attempt acts in. -/
def role? : Phase → Option Bool
  | .offered _ | .applied _ _ _ => some true
  | .answering _ _ _ | .waiting _ _ _ => some false
  | .opened _ srv _ | .done _ srv _ => some srv
  | _ => none

/-- Attempt `j` has applied the answer of `i` to its own offer. -/
def Hooked (s : St) (j i : Nat) : Prop :=
  (∃ h, s.phase j = .applied h i j) ∨ link? (s.phase j) = some (true, i)

structure Web (H : Nat → List Nat) (s : St) : Prop where
  room : ∀ j o, s.room.answer = some (j, o) → answered (s.phase j) = some o
  app : ∀ i h j o, s.phase i = .applied h j o → answered (s.phase j) = some o
  top : ∀ i j, link? (s.phase i) = some (true, j) → answered (s.phase j) = some i
  bot : ∀ i o, link? (s.phase i) = some (false, o) → Hooked s o i
  side : ∀ i h, found? (s.phase i) = some h → h ≠ H i
  role : ∀ i h r, found? (s.phase i) = some h → role? (s.phase i) = some r → determineIsServer (H i) h = r

/-- What an attempt does depends on where it is only. -/
theorem web_phase {s' : St} (hi : ∀ j, s'.phase j = s.phase j) (hr : s'.room = s.room) (h : Web H s) : Web H s' := by
  have e : s'.phase = s.phase := funext hi
  constructor
  · rw [hr, e]; exact h.room
  · rw [e]; exact h.app
  · rw [e]; exact h.top
  · intro i o hl
    rw [e] at hl
    have := h.bot i o hl
    unfold Hooked at this ⊢
    rwa [e]
  · rw [e]; exact h.side
  · rw [e]; exact h.role

/-- A step that leaves what others rely on. -/
theorem web_move {i : Nat} {p : Phase} {r : Room} (h : Web H s)
    (hans : answered (s.phase i) = none ∨ answered (s.phase i) = answered p)
    (hhook : ∀ j, Hooked s i j → (∃ g, p = .applied g j i) ∨ link? p = some (true, j))
    (hroom : ∀ j o, r.answer = some (j, o) → (s.room.answer = some (j, o) ∨ (j = i ∧ answered p = some o)))
    (happ : ∀ g j o, p = .applied g j o → j ≠ i ∧ answered (s.phase j) = some o)
    (htop : ∀ j, link? p = some (true, j) → j ≠ i ∧ answered (s.phase j) = some i)
    (hbot : ∀ o, link? p = some (false, o) → o ≠ i ∧ Hooked s o i)
    (hside : ∀ g, found? p = some g → g ≠ H i)
    (hrole : ∀ g r, found? p = some g → role? p = some r → determineIsServer (H i) g = r) :
    Web H { setPhase s i p with room := r } := by
  have keep : ∀ j o, answered (s.phase j) = some o → answered (if j = i then p else s.phase j) = some o := by
    intro j o hj
    by_cases e : j = i
    · subst e
      rw [if_pos rfl]
      rcases hans with h0 | h0
      · rw [h0] at hj; exact nomatch hj
      · rw [← h0]; exact hj
    · rw [if_neg e]; exact hj
  have hook : ∀ j k, Hooked s j k → Hooked { setPhase s i p with room := r } j k := by
    intro j k hj
    unfold Hooked
    simp only [setPhase]
    by_cases e : j = i
    · subst e
      rw [if_pos rfl]
      rcases hhook k hj with ⟨g, e⟩ | h0
      · exact Or.inl ⟨g, e⟩
      · exact Or.inr h0
    · rw [if_neg e]; exact hj
  constructor
  · intro j o hj
    rcases hroom j o hj with h0 | ⟨rfl, h0⟩
    · exact keep j o (h.room j o h0)
    · simpa [setPhase] using h0
  · intro k g j o hp
    simp only [setPhase] at hp ⊢
    by_cases e : k = i
    · subst e
      rw [if_pos rfl] at hp
      obtain ⟨h1, h2⟩ := happ g j o hp
      rw [if_neg h1]; exact h2
    · rw [if_neg e] at hp
      exact keep j o (h.app k g j o hp)
  · intro k j hp
    simp only [setPhase] at hp ⊢
    by_cases e : k = i
    · subst e
      rw [if_pos rfl] at hp
      obtain ⟨h1, h2⟩ := htop j hp
      rw [if_neg h1]; exact h2
    · rw [if_neg e] at hp
      exact keep j k (h.top k j hp)
  · intro k o hp
    simp only [setPhase] at hp
    by_cases e : k = i
    · subst e
      rw [if_pos rfl] at hp
      exact hook o k (hbot o hp).2
    · rw [if_neg e] at hp
      exact hook o k (h.bot k o hp)
  · intro k g hp
    simp only [setPhase] at hp
    by_cases e : k = i
    · subst e
      rw [if_pos rfl] at hp
      exact hside g hp
    · rw [if_neg e] at hp
      exact h.side k g hp
  · intro k g r' hp hr
    simp only [setPhase] at hp hr
    by_cases e : k = i
    · subst e
      rw [if_pos rfl] at hp hr
      exact hrole g r' hp hr
    · rw [if_neg e] at hp hr
      exact h.role k g r' hp hr

theorem endUp_answered {j i : Nat} (h : endUp s j i = true) : answered (s.phase j) = some i := by
  unfold endUp at h
  cases hp : s.phase j with
  | opened g srv o => cases srv <;> simp_all [answered]
  | done g srv o => cases srv <;> simp_all [answered]
  | _ => simp_all [answered]

theorem alphaUp_hooked {i j : Nat} (h : alphaUp s i j = true) : Hooked s i j := by
  unfold alphaUp at h
  unfold Hooked
  cases hp : s.phase i with
  | opened g srv o => cases srv <;> simp_all [link?]
  | done g srv o => cases srv <;> simp_all [link?]
  | _ => simp_all [link?]

theorem answered_rules : answered .idle = none ∧ answered .greeted = none ∧ (∀ h, answered (.found h) = none) ∧
    (∀ h, answered (.offered h) = none) ∧ (∀ h j o, answered (.applied h j o) = none) ∧
    (∀ h o m, answered (.answering h o m) = some o) ∧ (∀ h o m, answered (.waiting h o m) = some o) ∧
    (∀ h o, answered (.opened h false o) = some o) ∧ (∀ h o, answered (.opened h true o) = none) :=
  ⟨rfl, rfl, fun _ => rfl, fun _ => rfl, fun _ _ _ => rfl, fun _ _ _ => rfl, fun _ _ _ => rfl, fun _ _ => rfl,
    fun _ _ => rfl⟩

theorem Web.step {x : Act} (h : Web H s) (hst : step H s x = some t) : Web H t := by
  obtain ⟨-, htr⟩ := tr_of_step hst
  cases htr with
  | timeout _ => exact web_phase (s := s) (s' := setGone s _) (fun _ => rfl) rfl h
  | leave _ _ => exact web_phase (s := s) (s' := setGone s _) (fun _ => rfl) rfl h
  | @greet i hp =>
    refine web_move h ?_ ?_ ?_ ?_ ?_ ?_ ?_ ?_ <;>
      simp [hp, answered_rules, Hooked, link?, found?, role?]
  | @find i their hp h1 h2 h3 =>
    refine web_move (r := s.room) h ?_ ?_ ?_ ?_ ?_ ?_ ?_ ?_ <;>
      simp [hp, answered_rules, Hooked, link?, found?, role?]
    all_goals first
      | exact h3
  | @offer i their hp hc =>
    refine web_move h ?_ ?_ ?_ ?_ ?_ ?_ ?_ ?_ <;>
      simp [hp, answered_rules, Hooked, link?, found?, role?]
    all_goals first
      | exact h.side i their (by rw [hp]; rfl)
      | exact hc
  | @apply i their b o hp hc =>
    have hb := h.room b o hc
    have hne : b ≠ i := by rintro rfl; rw [hp] at hb; exact nomatch hb
    refine web_move (r := s.room) h ?_ ?_ ?_ ?_ ?_ ?_ ?_ ?_ <;>
      simp [hp, answered_rules, Hooked, link?, found?, role?]
    all_goals first
      | exact h.side i their (by rw [hp]; rfl)
      | exact ⟨hne, hb⟩
      | exact h.role i their true (by rw [hp]; rfl) (by rw [hp]; rfl)
  | @answer i their o hp hc ho =>
    refine web_move h ?_ ?_ ?_ ?_ ?_ ?_ ?_ ?_ <;>
      simp [hp, answered_rules, Hooked, link?, found?, role?]
    all_goals first
      | exact h.side i their (by rw [hp]; rfl)
      | exact hc
      | exact fun j o h1 h2 => Or.inr ⟨h1.symm, h2⟩
  | @replied i their o m hp =>
    refine web_move (r := s.room) h ?_ ?_ ?_ ?_ ?_ ?_ ?_ ?_ <;>
      simp [hp, answered_rules, Hooked, link?, found?, role?]
    all_goals first
      | exact h.side i their (by rw [hp]; rfl)
      | exact fun j o hj => Or.inl hj
      | exact h.role i their false (by rw [hp]; rfl) (by rw [hp]; rfl)
  | @up i their b hp hc =>
    have hb := endUp_answered hc
    have hne : b ≠ i := by rintro rfl; rw [hp] at hb; exact nomatch hb
    refine web_move (r := s.room) h ?_ ?_ ?_ ?_ ?_ ?_ ?_ ?_ <;>
      simp [hp, answered_rules, Hooked, link?, found?, role?]
    all_goals first
      | exact h.side i their (by rw [hp]; rfl)
      | exact ⟨hne, hb⟩
      | exact h.role i their true (by rw [hp]; rfl) (by rw [hp]; rfl)
  | @early i their o hp hc =>
    refine web_move (r := s.room) h ?_ ?_ ?_ ?_ ?_ ?_ ?_ ?_ <;>
      simp [hp, answered_rules, Hooked, link?, found?, role?]
    all_goals first
      | exact h.side i their (by rw [hp]; rfl)
      | exact fun j o hj => Or.inl hj
      | exact h.role i their false (by rw [hp]; rfl) (by rw [hp]; rfl)
  | @event i their o hp hc =>
    have hh := alphaUp_hooked hc
    have hne : o ≠ i := by
      rintro rfl
      unfold Hooked at hh
      rw [hp] at hh
      simp [link?] at hh
    refine web_move (r := s.room) h ?_ ?_ ?_ ?_ ?_ ?_ ?_ ?_ <;>
      simp [hp, answered_rules, Hooked, link?, found?, role?]
    all_goals first
      | exact h.side i their (by rw [hp]; rfl)
      | exact fun j o hj => Or.inl hj
      | exact ⟨hne, hh⟩
      | exact h.role i their false (by rw [hp]; rfl) (by rw [hp]; rfl)
  | @finish i their srv p hp =>
    refine web_move h ?_ ?_ ?_ ?_ ?_ ?_ ?_ ?_ <;> simp [hp, Hooked, link?, found?, role?, Room.empty]
    · cases srv <;> simp [answered]
    · rintro rfl
      have := h.top i p (by rw [hp]; rfl)
      refine ⟨?_, this⟩
      rintro rfl
      rw [hp] at this
      exact nomatch this
    · rintro rfl
      have := h.bot i p (by rw [hp]; rfl)
      refine ⟨?_, this⟩
      rintro rfl
      unfold Hooked at this
      rw [hp] at this
      simp [link?] at this
    · exact h.side i their (by rw [hp]; rfl)
    · cases srv
      · simpa using h.role i their false (by rw [hp]; rfl) (by rw [hp]; rfl)
      · simpa using h.role i their true (by rw [hp]; rfl) (by rw [hp]; rfl)

theorem web_run (h : run H init as = some t) : Web H t :=
  run_inv (I := Web H) (P := fun _ => True) (fun _ _ _ hi _ hst => hi.step hst) as init t
    (by constructor <;> simp [init, Room.empty, answered, link?, found?]) (fun _ _ => trivial) h

/-- Whatever happened in the room, and however many attempts there are: the two ends of a data channel name each other,
one of them in the role of the server and the other in that of the client, and the role is the one the attempt took
when it found a hash that is not its own. -/
theorem C160_ends (h : run H init as = some t) {i j k : Nat} {srv srv' : Bool}
    (hi : link? (t.phase i) = some (srv, j)) :
    i ≠ j ∧ side? H t i = some srv ∧ (link? (t.phase j) = some (srv', k) → k = i ∧ srv' = !srv) := by
  have w := web_run h
  have hf : ∃ g, found? (t.phase i) = some g ∧ role? (t.phase i) = some srv := by
    cases hp : t.phase i <;> rw [hp] at hi <;> simp [link?] at hi
    · exact ⟨_, rfl, by rw [← hi.1]; rfl⟩
    · exact ⟨_, rfl, by rw [← hi.1]; rfl⟩
  obtain ⟨g, hg, hr⟩ := hf
  have hs : side? H t i = some srv := by
    unfold side?
    rw [hg, Option.map_some, w.role i g srv hg hr]
  cases srv with
  | true =>
    have ha := w.top i j hi
    refine ⟨?_, hs, fun hj => ?_⟩
    · rintro rfl
      cases hp : t.phase i <;> rw [hp] at hi ha <;> simp [link?] at hi <;> simp [answered, hi] at ha
    · cases hp : t.phase j <;> rw [hp] at hj ha <;> simp [link?] at hj
      all_goals
        obtain ⟨rfl, rfl⟩ := hj
        rename_i s1 _
        cases s1 <;> simp [answered] at ha ⊢
        exact ha
  | false =>
    have ha := w.bot i j hi
    unfold Hooked at ha
    refine ⟨?_, hs, fun hj => ?_⟩
    · rintro rfl
      rcases ha with ⟨g, hg⟩ | h0
      · rw [hg] at hi; exact nomatch hi
      · rw [h0] at hi; simp at hi
    · rcases ha with ⟨g, hg⟩ | h0
      · rw [hg] at hj; exact nomatch hj
      · rw [h0] at hj
        simp only [Option.some.injEq, Prod.mk.injEq] at hj
        exact ⟨hj.2.symm, hj.1.symm⟩

/-- No attempt is at the other end of two data channels. -/
theorem C160_unique (h : run H init as = some t) {i k j : Nat} {srv srv' : Bool}
    (hi : link? (t.phase i) = some (srv, j)) (hk : link? (t.phase k) = some (srv', j)) : i = k := by
  have w := web_run h
  cases srv <;> cases srv'
  · have h1 := w.bot i j hi
    have h2 := w.bot k j hk
    unfold Hooked at h1 h2
    rcases h1 with ⟨g, e⟩ | e <;> rcases h2 with ⟨g', f⟩ | f
    · rw [e] at f; simp at f; exact f.2
    · rw [e] at f; exact nomatch f
    · rw [f] at e; exact nomatch e
    · rw [e] at f; simpa using f
  · have h1 := w.bot i j hi
    have h2 := w.top k j hk
    unfold Hooked at h1
    rcases h1 with ⟨g, e⟩ | e
    · rw [e] at h2; exact nomatch h2
    · cases hp : t.phase j <;> rw [hp] at e h2 <;> simp [link?] at e <;> simp [answered, e] at h2
  · have h1 := w.top i j hi
    have h2 := w.bot k j hk
    unfold Hooked at h2
    rcases h2 with ⟨g, e⟩ | e
    · rw [e] at h1; exact nomatch h1
    · cases hp : t.phase j <;> rw [hp] at e h1 <;> simp [link?] at e <;> simp [answered, e] at h1
  · have h1 := w.top i j hi
    have h2 := w.top k j hk
    rw [h1] at h2
    exact Option.some.inj h2

/-- Four attempts in one room, two data channels. -/
example : ∃ t, run (fun i => [i]) init [.greet 5, .greet 7, .find 5 [7], .find 7 [5], .offer 7, .answer 5, .replied 5,
    .apply 7, .event 5, .up 7, .finish 7, .greet 4, .greet 9, .find 4 [9], .find 9 [4], .offer 9, .answer 4, .replied 4,
    .apply 9, .event 4, .up 9, .finish 5] = some t ∧ link? (t.phase 7) = some (true, 5) ∧
    link? (t.phase 5) = some (false, 7) ∧ link? (t.phase 9) = some (true, 4) ∧ link? (t.phase 4) = some (false, 9) :=
  ⟨_, rfl, rfl, rfl, rfl, rfl⟩

end Verif.Serverless

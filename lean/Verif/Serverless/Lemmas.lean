import Verif.Serverless.Spec

/-
Order of strings, what the steps change, and the states two attempts alone in a room can reach.
-/
namespace Verif.Serverless

variable {H : Nat → List Nat} {s t : St} {as : List Act} {a b : Nat}

theorem strLt_irrefl : ∀ x : List Nat, strLt x x = false
  | [] => rfl
  | x :: xs => by simp [strLt, strLt_irrefl xs]

theorem strLt_asymm : ∀ {x y : List Nat}, strLt x y = true → strLt y x = false
  | _, [], h => by simp [strLt] at h
  | [], _ :: _, _ => rfl
  | x :: xs, y :: ys, h => by
    simp only [strLt] at h ⊢
    by_cases h1 : x < y
    · rw [if_neg (by omega), if_pos h1]
    · rw [if_neg h1] at h
      by_cases h2 : y < x
      · simp [h2] at h
      · rw [if_neg h2] at h
        rw [if_neg h2, if_neg h1]
        exact strLt_asymm h

theorem strLt_total : ∀ {x y : List Nat}, x ≠ y → strLt x y = true ∨ strLt y x = true
  | [], [], h => (h rfl).elim
  | [], _ :: _, _ => Or.inl rfl
  | _ :: _, [], _ => Or.inr rfl
  | x :: xs, y :: ys, h => by
    simp only [strLt]
    by_cases h1 : x < y
    · exact Or.inl (by simp [h1])
    · by_cases h2 : y < x
      · exact Or.inr (by simp [h2])
      · have hxy : x = y := by omega
        subst hxy
        simp only [if_neg h1]
        exact strLt_total (fun e => h (by rw [e]))

theorem run_append (l1 l2 : List Act) :
    ∀ s, run H s (l1 ++ l2) = (run H s l1).bind (fun t => run H t l2) := by
  induction l1 with
  | nil => intro s; rfl
  | cons x l1 ih =>
    intro s
    show (match step H s x with | some t => run H t (l1 ++ l2) | none => none) =
      ((match step H s x with | some t => run H t l1 | none => none)).bind (fun t => run H t l2)
    cases step H s x with
    | none => rfl
    | some t => exact ih t

/-- An invariant of the steps in `P` holds after every run of such steps. -/
theorem run_inv {I : St → Prop} {P : Act → Prop}
    (hstep : ∀ s x t, I s → P x → step H s x = some t → I t) :
    ∀ (as : List Act) (s t : St), I s → (∀ x ∈ as, P x) → run H s as = some t → I t := by
  intro as
  induction as with
  | nil => intro s t hs _ h; simp only [run, Option.some.injEq] at h; exact h ▸ hs
  | cons x as ih =>
    intro s t hs hp h
    simp only [run] at h
    cases hx : step H s x with
    | none => rw [hx] at h; exact nomatch h
    | some u =>
      rw [hx] at h
      exact ih u t (hstep s x u hs (hp x (by simp)) hx) (fun y hy => hp y (by simp [hy])) h

/-- The steps one by one: where the attempt is before, and what becomes of the state. -/
inductive Tr (H : Nat → List Nat) (s : St) : Act → St → Prop
  | greet {i} : s.phase i = .idle →
      Tr H s (.greet i) { setPhase s i .greeted with
        room := { s.room with participants := s.room.participants.insert (participantKey (H i)) (H i) } }
  | find {i their} : s.phase i = .greeted → 2 ≤ s.room.participants.length →
      their ∈ s.room.participants.map Prod.snd → their ≠ H i → Tr H s (.find i their) (setPhase s i (.found their))
  | offer {i their} : s.phase i = .found their → determineIsServer (H i) their = true →
      Tr H s (.offer i) { setPhase s i (.offered their) with room := { s.room with offer := some i } }
  | apply {i their b o} : s.phase i = .offered their → s.room.answer = some (b, o) →
      Tr H s (.apply i) (setPhase s i (.applied their b o))
  | answer {i their o} : s.phase i = .found their → determineIsServer (H i) their = false → s.room.offer = some o →
      Tr H s (.answer i) { setPhase s i (.answering their o false) with room := { s.room with answer := some (i, o) } }
  | replied {i their o m} : s.phase i = .answering their o m → Tr H s (.replied i) (setPhase s i (.waiting their o m))
  | up {i their b} : s.phase i = .applied their b i → endUp s b i = true →
      Tr H s (.up i) (setPhase s i (.opened their true b))
  | early {i their o} : s.phase i = .answering their o false → alphaUp s o i = true →
      Tr H s (.event i) (setPhase s i (.answering their o true))
  | event {i their o} : s.phase i = .waiting their o false → alphaUp s o i = true →
      Tr H s (.event i) (setPhase s i (.opened their false o))
  | finish {i their srv p} : s.phase i = .opened their srv p →
      Tr H s (.finish i) { setPhase s i (.done their srv p) with room := Room.empty }
  | timeout {i} : (s.phase i = .greeted ∨ (∃ h, s.phase i = .found h ∧ determineIsServer (H i) h = false) ∨
      (∃ h, s.phase i = .offered h)) → Tr H s (.timeout i) (setGone s i)
  | leave {i} : s.phase i ≠ .idle → isDone (s.phase i) = false → Tr H s (.leave i) (setGone s i)

theorem tr_of_step {x : Act} (h : step H s x = some t) : s.gone x.who = false ∧ Tr H s x t := by
  unfold step at h
  split at h
  · exact nomatch h
  rename_i hg
  refine ⟨by simpa using hg, ?_⟩
  clear hg
  cases x <;> dsimp only at h
  case greet i =>
    split at h
    · rename_i hp; cases h; exact .greet hp
    · exact nomatch h
  case find i their =>
    split at h
    · rename_i hp
      split at h
      · rename_i hc; cases h; exact .find hp hc.1 hc.2.1 hc.2.2
      · exact nomatch h
    · exact nomatch h
  case offer i =>
    split at h
    · rename_i hp
      split at h
      · rename_i hc; cases h; exact .offer hp hc
      · exact nomatch h
    · exact nomatch h
  case apply i =>
    split at h
    · rename_i hp
      split at h
      · rename_i hc; cases h; exact .apply hp hc
      · exact nomatch h
    · exact nomatch h
  case answer i =>
    split at h
    · rename_i hp
      split at h
      · exact nomatch h
      · rename_i hc
        split at h
        · rename_i ho; cases h; exact .answer hp (by simpa using hc) ho
        · exact nomatch h
    · exact nomatch h
  case replied i =>
    split at h
    · rename_i hp; cases h; exact .replied hp
    · exact nomatch h
  case up i =>
    split at h
    · rename_i hp
      split at h
      · rename_i hc; cases h; obtain ⟨rfl, hc⟩ := hc; exact .up hp hc
      · exact nomatch h
    · exact nomatch h
  case event i =>
    split at h
    · rename_i hp
      split at h
      · rename_i hc; cases h; exact .early hp hc
      · exact nomatch h
    · rename_i hp
      split at h
      · rename_i hc; cases h; exact .event hp hc
      · exact nomatch h
    · exact nomatch h
  case finish i =>
    split at h
    · rename_i hp; cases h; exact .finish hp
    · exact nomatch h
  case timeout i =>
    split at h
    · rename_i hp; cases h; exact .timeout (Or.inl hp)
    · rename_i hp
      split at h
      · exact nomatch h
      · rename_i hc; cases h; exact .timeout (Or.inr (Or.inl ⟨_, hp, by simpa using hc⟩))
    · rename_i hp; cases h; exact .timeout (Or.inr (Or.inr ⟨_, hp⟩))
    · exact nomatch h
  case leave i =>
    split at h
    · exact nomatch h
    · exact nomatch h
    · rename_i h1 h2
      cases h
      refine .leave h1 ?_
      cases hp : s.phase i <;> first | rfl | exact absurd hp (h2 _ _ _)

theorem step_of_tr {x : Act} (hg : s.gone x.who = false) (h : Tr H s x t) : step H s x = some t := by
  unfold step
  rw [hg]
  cases h with
  | greet hp => simp [hp]
  | find hp h1 h2 h3 => simp only [hp]; simp [h1, h3] at h2 ⊢; exact h2
  | offer hp hc => simp [hp, hc]
  | apply hp hc => simp [hp, hc]
  | answer hp hc ho => simp [hp, hc, ho]
  | replied hp => simp [hp]
  | up hp hc => simp [hp, hc]
  | early hp hc => simp [hp, hc]
  | event hp hc => simp [hp, hc]
  | finish hp => simp [hp]
  | timeout hp =>
    rcases hp with hp | ⟨h, hp, hc⟩ | ⟨h, hp⟩
    · simp [hp]
    · simp [hp, hc]
    · simp [hp]
  | @leave i h1 h2 =>
    cases hp : s.phase i <;> simp_all [isDone]

/-- How far an attempt is. -/
def lvl : Phase → Nat
  | .idle => 0
  | .greeted => 1
  | .found _ => 2
  | .offered _ => 3
  | .applied _ _ _ => 4
  | .answering _ _ _ => 3
  | .waiting _ _ _ => 4
  | .opened _ _ _ => 5
  | .done _ _ _ => 6

def missed : Phase → Bool
  | .answering _ _ m => m
  | .waiting _ _ m => m
  | _ => false

/-- The states of two attempts alone in a fresh room: `a` has the greater hash. `p` and `q` are their phases. -/
structure DuoV (H : Nat → List Nat) (a b : Nat) (r : Room) (p q : Phase) : Prop where
  pa : p = .idle ∨ p = .greeted ∨ p = .found (H b) ∨ p = .offered (H b) ∨ p = .applied (H b) b a ∨
    p = .opened (H b) true b ∨ p = .done (H b) true b
  pb : q = .idle ∨ q = .greeted ∨ q = .found (H a) ∨ (∃ m, q = .answering (H a) a m) ∨
    (∃ m, q = .waiting (H a) a m) ∨ q = .opened (H a) false a ∨ q = .done (H a) false a
  off : r.offer = none ∨ r.offer = some a ∧ 3 ≤ lvl p
  ans : r.answer = none ∨ r.answer = some (b, a) ∧ 3 ≤ lvl q
  part : ∀ e ∈ r.participants, (e = (participantKey (H a), H a) ∧ 1 ≤ lvl p) ∨
    (e = (participantKey (H b), H b) ∧ 1 ≤ lvl q)
  fa : 2 ≤ lvl p → 1 ≤ lvl q
  fb : 2 ≤ lvl q → 1 ≤ lvl p
  b3 : 3 ≤ lvl q → 3 ≤ lvl p
  a4 : 4 ≤ lvl p → 3 ≤ lvl q
  b5 : 5 ≤ lvl q → 4 ≤ lvl p
  mi : missed q = true → 4 ≤ lvl p
  keep : lvl p < 6 → lvl q < 6 →
    (1 ≤ lvl p → (participantKey (H a), H a) ∈ r.participants) ∧
    (1 ≤ lvl q → (participantKey (H b), H b) ∈ r.participants) ∧
    (3 ≤ lvl p → r.offer = some a) ∧ (3 ≤ lvl q → r.answer = some (b, a))

def Duo (H : Nat → List Nat) (a b : Nat) (s : St) : Prop := DuoV H a b s.room (s.phase a) (s.phase b)

theorem duo_init : Duo H a b init := by
  constructor <;> simp [init, Room.empty, lvl, missed]

theorem mem_insert {κ α : Type} [DecidableEq κ] {m : AMap κ α} {k : κ} {v : α} {e : κ × α} :
    e ∈ m.insert k v ↔ e = (k, v) ∨ (e ∈ m ∧ e.1 ≠ k) := by
  unfold AMap.insert AMap.erase
  simp

set_option linter.unusedSimpArgs false

variable {r : Room} {p q : Phase}

theorem duo_greetA (hk : participantKey (H a) ≠ participantKey (H b)) (h : DuoV H a b r .idle q) :
    DuoV H a b { r with participants := r.participants.insert (participantKey (H a)) (H a) } .greeted q := by
  have hk' : participantKey (H b) ≠ participantKey (H a) := fun e => hk e.symm
  obtain ⟨-, pb, off, ans, part, fa, fb, b3, a4, b5, mi, keep⟩ := h
  rcases pb with rfl | rfl | rfl | ⟨m, rfl⟩ | ⟨m, rfl⟩ | rfl | rfl <;>
    simp [lvl, missed] at off ans part fa fb b3 a4 b5 mi keep <;> constructor <;> simp_all [lvl, missed, Room.empty, mem_insert]
  exact fun x y hx _ => part x y hx

theorem duo_greetB (hk : participantKey (H a) ≠ participantKey (H b)) (h : DuoV H a b r p .idle) :
    DuoV H a b { r with participants := r.participants.insert (participantKey (H b)) (H b) } p .greeted := by
  have hk' : participantKey (H b) ≠ participantKey (H a) := fun e => hk e.symm
  obtain ⟨pa, -, off, ans, part, fa, fb, b3, a4, b5, mi, keep⟩ := h
  rcases pa with rfl | rfl | rfl | rfl | rfl | rfl | rfl <;>
    simp [lvl, missed] at off ans part fa fb b3 a4 b5 mi keep <;> constructor <;> simp_all [lvl, missed, Room.empty, mem_insert]
  exact fun x y hx _ => part x y hx

theorem duo_foundA {their : List Nat} (h : DuoV H a b r .greeted q) (hm : their ∈ r.participants.map Prod.snd)
    (hne : their ≠ H a) : their = H b ∧ DuoV H a b r (.found (H b)) q := by
  obtain ⟨e, he, rfl⟩ := List.mem_map.mp hm
  rcases h.part e he with ⟨rfl, _⟩ | ⟨rfl, hq⟩
  · exact (hne rfl).elim
  refine ⟨rfl, ?_⟩
  clear hm hne he
  obtain ⟨-, pb, off, ans, part, fa, fb, b3, a4, b5, mi, keep⟩ := h
  rcases pb with rfl | rfl | rfl | ⟨m, rfl⟩ | ⟨m, rfl⟩ | rfl | rfl <;>
    simp [lvl, missed] at off ans part fa fb b3 a4 b5 mi keep <;> constructor <;> simp_all [lvl, missed, Room.empty, mem_insert]

theorem duo_foundB {their : List Nat} (h : DuoV H a b r p .greeted) (hm : their ∈ r.participants.map Prod.snd)
    (hne : their ≠ H b) : their = H a ∧ DuoV H a b r p (.found (H a)) := by
  obtain ⟨e, he, rfl⟩ := List.mem_map.mp hm
  rcases h.part e he with ⟨rfl, hq⟩ | ⟨rfl, _⟩
  · refine ⟨rfl, ?_⟩
    clear hm hne he
    obtain ⟨pa, -, off, ans, part, fa, fb, b3, a4, b5, mi, keep⟩ := h
    rcases pa with rfl | rfl | rfl | rfl | rfl | rfl | rfl <;>
      simp [lvl, missed] at off ans part fa fb b3 a4 b5 mi keep <;> constructor <;> simp_all [lvl, missed, Room.empty, mem_insert]
  · exact (hne rfl).elim

theorem duo_offerA (h : DuoV H a b r (.found (H b)) q) :
    DuoV H a b { r with offer := some a } (.offered (H b)) q := by
  obtain ⟨-, pb, off, ans, part, fa, fb, b3, a4, b5, mi, keep⟩ := h
  rcases pb with rfl | rfl | rfl | ⟨m, rfl⟩ | ⟨m, rfl⟩ | rfl | rfl <;>
    simp [lvl, missed] at off ans part fa fb b3 a4 b5 mi keep <;> constructor <;> simp_all [lvl, missed, Room.empty, mem_insert]

theorem duo_applyA {b' o : Nat} (h : DuoV H a b r (.offered (H b)) q) (hr : r.answer = some (b', o)) :
    (b' = b ∧ o = a) ∧ DuoV H a b r (.applied (H b) b a) q := by
  rcases h.ans with h0 | ⟨h0, hq⟩
  · rw [h0] at hr; exact nomatch hr
  · rw [h0, Option.some.injEq, Prod.mk.injEq] at hr
    refine ⟨⟨hr.1.symm, hr.2.symm⟩, ?_⟩
    clear hr
    obtain ⟨-, pb, off, ans, part, fa, fb, b3, a4, b5, mi, keep⟩ := h
    rcases pb with rfl | rfl | rfl | ⟨m, rfl⟩ | ⟨m, rfl⟩ | rfl | rfl <;>
      simp [lvl, missed] at off ans part fa fb b3 a4 b5 mi keep <;> constructor <;> simp_all [lvl, missed, Room.empty, mem_insert]

theorem duo_answerB {o : Nat} (h : DuoV H a b r p (.found (H a))) (hr : r.offer = some o) :
    o = a ∧ DuoV H a b { r with answer := some (b, a) } p (.answering (H a) a false) := by
  rcases h.off with h0 | ⟨h0, hq⟩
  · rw [h0] at hr; exact nomatch hr
  · rw [h0, Option.some.injEq] at hr
    refine ⟨hr.symm, ?_⟩
    clear hr
    obtain ⟨pa, -, off, ans, part, fa, fb, b3, a4, b5, mi, keep⟩ := h
    rcases pa with rfl | rfl | rfl | rfl | rfl | rfl | rfl <;>
      simp [lvl, missed] at off ans part fa fb b3 a4 b5 mi keep <;> constructor <;> simp_all [lvl, missed, Room.empty, mem_insert]

theorem duo_repliedB {m : Bool} (h : DuoV H a b r p (.answering (H a) a m)) :
    DuoV H a b r p (.waiting (H a) a m) := by
  obtain ⟨pa, -, off, ans, part, fa, fb, b3, a4, b5, mi, keep⟩ := h
  rcases pa with rfl | rfl | rfl | rfl | rfl | rfl | rfl <;>
    simp [lvl, missed] at off ans part fa fb b3 a4 b5 mi keep <;> constructor <;> simp_all [lvl, missed, Room.empty, mem_insert]

theorem duo_upA (h : DuoV H a b r (.applied (H b) b a) q) : DuoV H a b r (.opened (H b) true b) q := by
  obtain ⟨-, pb, off, ans, part, fa, fb, b3, a4, b5, mi, keep⟩ := h
  rcases pb with rfl | rfl | rfl | ⟨m, rfl⟩ | ⟨m, rfl⟩ | rfl | rfl <;>
    simp [lvl, missed] at off ans part fa fb b3 a4 b5 mi keep <;> constructor <;> simp_all [lvl, missed, Room.empty, mem_insert]

theorem duo_earlyB (h : DuoV H a b r p (.answering (H a) a false)) (hl : 4 ≤ lvl p) :
    DuoV H a b r p (.answering (H a) a true) := by
  obtain ⟨pa, -, off, ans, part, fa, fb, b3, a4, b5, mi, keep⟩ := h
  rcases pa with rfl | rfl | rfl | rfl | rfl | rfl | rfl <;>
    simp [lvl, missed] at off ans part fa fb b3 a4 b5 mi keep <;> constructor <;> simp_all [lvl, missed, Room.empty, mem_insert]

theorem duo_eventB (h : DuoV H a b r p (.waiting (H a) a false)) (hl : 4 ≤ lvl p) :
    DuoV H a b r p (.opened (H a) false a) := by
  obtain ⟨pa, -, off, ans, part, fa, fb, b3, a4, b5, mi, keep⟩ := h
  rcases pa with rfl | rfl | rfl | rfl | rfl | rfl | rfl <;>
    simp [lvl, missed] at off ans part fa fb b3 a4 b5 mi keep <;> constructor <;> simp_all [lvl, missed, Room.empty, mem_insert]

theorem duo_finishA (h : DuoV H a b r (.opened (H b) true b) q) : DuoV H a b Room.empty (.done (H b) true b) q := by
  obtain ⟨-, pb, off, ans, part, fa, fb, b3, a4, b5, mi, keep⟩ := h
  rcases pb with rfl | rfl | rfl | ⟨m, rfl⟩ | ⟨m, rfl⟩ | rfl | rfl <;>
    simp [lvl, missed] at off ans part fa fb b3 a4 b5 mi keep <;> constructor <;> simp_all [lvl, missed, Room.empty, mem_insert]

theorem duo_finishB (h : DuoV H a b r p (.opened (H a) false a)) : DuoV H a b Room.empty p (.done (H a) false a) := by
  obtain ⟨pa, -, off, ans, part, fa, fb, b3, a4, b5, mi, keep⟩ := h
  rcases pa with rfl | rfl | rfl | rfl | rfl | rfl | rfl <;>
    simp [lvl, missed] at off ans part fa fb b3 a4 b5 mi keep <;> constructor <;> simp_all [lvl, missed, Room.empty, mem_insert]

theorem alphaUp_lvl {s : St} {i j : Nat} (h : alphaUp s i j = true) : 4 ≤ lvl (s.phase i) := by
  unfold alphaUp at h
  cases hp : s.phase i <;> simp_all [lvl]

theorem Duo.step (hab : a ≠ b) (hk : participantKey (H a) ≠ participantKey (H b))
    (hs : determineIsServer (H a) (H b) = true) {x : Act} (h : Duo H a b s) (hw : x.who ∈ [a, b])
    (hst : step H s x = some t) : Duo H a b t := by
  have hs' : determineIsServer (H b) (H a) = false := strLt_asymm hs
  have hba : b ≠ a := fun e => hab e.symm
  obtain ⟨-, htr⟩ := tr_of_step hst
  simp only [List.mem_cons, List.not_mem_nil, or_false] at hw
  unfold Duo at h
  have pa := h.pa
  have pb := h.pb
  cases htr with
  | @greet i hp =>
    rcases hw with e | e <;> simp only [Act.who] at e <;> subst e
    · simp only [Duo, setPhase, if_neg hba, ↓reduceIte]
      exact duo_greetA hk (hp ▸ h)
    · simp only [Duo, setPhase, if_neg hab, ↓reduceIte]
      exact duo_greetB hk (hp ▸ h)
  | @find i their hp h1 h2 h3 =>
    rcases hw with e | e <;> simp only [Act.who] at e <;> subst e
    · simp only [Duo, setPhase, if_neg hba, ↓reduceIte]
      obtain ⟨rfl, hd⟩ := duo_foundA (hp ▸ h) h2 h3
      exact hd
    · simp only [Duo, setPhase, if_neg hab, ↓reduceIte]
      obtain ⟨rfl, hd⟩ := duo_foundB (hp ▸ h) h2 h3
      exact hd
  | @offer i their hp hc =>
    rcases hw with e | e <;> simp only [Act.who] at e <;> subst e
    · simp only [Duo, setPhase, if_neg hba, ↓reduceIte]
      have e : their = H b := by rw [hp] at pa; simpa using pa
      subst e
      exact duo_offerA (hp ▸ h)
    · have e : their = H a := by rw [hp] at pb; simpa using pb
      subst e
      exact absurd (hs'.symm.trans hc) (by decide)
  | @apply i their b' o hp hc =>
    rcases hw with e | e <;> simp only [Act.who] at e <;> subst e
    · simp only [Duo, setPhase, if_neg hba, ↓reduceIte]
      have e : their = H b := by rw [hp] at pa; simpa using pa
      subst e
      obtain ⟨⟨rfl, rfl⟩, hd⟩ := duo_applyA (hp ▸ h) hc
      exact hd
    · rw [hp] at pb; simp at pb
  | @answer i their o hp hc ho =>
    rcases hw with e | e <;> simp only [Act.who] at e <;> subst e
    · have e : their = H b := by rw [hp] at pa; simpa using pa
      subst e
      exact absurd (hc.symm.trans hs) (by decide)
    · simp only [Duo, setPhase, if_neg hab, ↓reduceIte]
      have e : their = H a := by rw [hp] at pb; simpa using pb
      subst e
      obtain ⟨rfl, hd⟩ := duo_answerB (hp ▸ h) ho
      exact hd
  | @replied i their o m hp =>
    rcases hw with e | e <;> simp only [Act.who] at e <;> subst e
    · rw [hp] at pa; simp at pa
    · simp only [Duo, setPhase, if_neg hab, ↓reduceIte]
      have e : their = H a ∧ o = a := by rw [hp] at pb; simpa using pb
      obtain ⟨rfl, rfl⟩ := e
      exact duo_repliedB (hp ▸ h)
  | @up i their b' hp hc =>
    rcases hw with e | e <;> simp only [Act.who] at e <;> subst e
    · simp only [Duo, setPhase, if_neg hba, ↓reduceIte]
      have e : their = H b ∧ b' = b := by rw [hp] at pa; simpa using pa
      obtain ⟨rfl, rfl⟩ := e
      exact duo_upA (hp ▸ h)
    · rw [hp] at pb; simp at pb
  | @early i their o hp hc =>
    rcases hw with e | e <;> simp only [Act.who] at e <;> subst e
    · rw [hp] at pa; simp at pa
    · simp only [Duo, setPhase, if_neg hab, ↓reduceIte]
      have e : their = H a ∧ o = a := by rw [hp] at pb; simpa using pb
      obtain ⟨rfl, rfl⟩ := e
      exact duo_earlyB (hp ▸ h) (alphaUp_lvl hc)
  | @event i their o hp hc =>
    rcases hw with e | e <;> simp only [Act.who] at e <;> subst e
    · rw [hp] at pa; simp at pa
    · simp only [Duo, setPhase, if_neg hab, ↓reduceIte]
      have e : their = H a ∧ o = a := by rw [hp] at pb; simpa using pb
      obtain ⟨rfl, rfl⟩ := e
      exact duo_eventB (hp ▸ h) (alphaUp_lvl hc)
  | @finish i their srv p hp =>
    rcases hw with e | e <;> simp only [Act.who] at e <;> subst e
    · simp only [Duo, setPhase, if_neg hba, ↓reduceIte]
      have e : their = H b ∧ srv = true ∧ p = b := by rw [hp] at pa; simpa using pa
      obtain ⟨rfl, rfl, rfl⟩ := e
      exact duo_finishA (hp ▸ h)
    · simp only [Duo, setPhase, if_neg hab, ↓reduceIte]
      have e : their = H a ∧ srv = false ∧ p = a := by rw [hp] at pb; simpa using pb
      obtain ⟨rfl, rfl, rfl⟩ := e
      exact duo_finishB (hp ▸ h)
  | timeout _ => exact h
  | leave _ _ => exact h

end Verif.Serverless

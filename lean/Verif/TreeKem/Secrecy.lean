import Verif.TreeKem.Props
/-
C25, C26: symbolic secrecy of the epoch secrets against removed and later members.
-/
namespace Verif.TreeKem

open Verif.TreeMath Verif.Sym

/-! ### The attacker -/

/-- What happens next; `bad` joiners belong to the attacker. -/
inductive Choice
  | update (i : Nat) (rnd : Nat → Nat → Nat)
  | add (i cid : Nat) (rnd : Nat → Nat → Nat) (rw : Nat) (bad : Bool)
  | remove (i j : Nat) (rnd : Nat → Nat → Nat)
  | send (i : Nat)

def Choice.actor : Choice → Nat
  | .update i _ => i
  | .add i _ _ _ _ => i
  | .remove i _ _ => i
  | .send i => i

def Choice.isCommit : Choice → Prop
  | .send _ => False
  | _ => True

/-- At time `t` the fresh leaf secret is name `3 t`, a joiner's leaf secret `3 t + 1`, a message `3 t + 2`. -/
def opOf (t : Nat) : Choice → Op Term
  | .update i rnd => .update i (.fresh (3 * t)) rnd
  | .add i cid rnd rw _ => .add i ⟨cid, .pk (.fresh (3 * t + 1)), 0⟩ (.fresh (3 * t + 1)) (.fresh (3 * t)) rnd rw
  | .remove i j rnd => .remove i j (.fresh (3 * t)) rnd
  | .send i => .send i (.fresh (3 * t + 2))

/-- Everything in a member's state. -/
inductive Held (h : GroupState Term) : Term → Prop
  | own {r σ} : h.own r = some σ → Held h σ
  | epochSecret : Held h h.secrets.epochSecret
  | encryption : Held h h.secrets.encryption
  | confirmation : Held h h.secrets.confirmation
  | membership : Held h h.secrets.membership
  | init : Held h h.secrets.init
  | transcript : Held h h.transcript
  | key {v pk} : v ∈ h.tree → v.pk? = some pk → Held h pk

/-- Everything on the wire. -/
inductive Wire : Sent Term → Term → Prop
  | commit {c} : Wire (.commit c) (encCommit c)
  | welcomeCommit {c w} : Wire (.welcome c w) (encCommit c)
  | sealed {c w} : Wire (.welcome c w) w.sealed
  | transcript {c w} : Wire (.welcome c w) w.transcript
  | key {c w v pk} : v ∈ w.tree → v.pk? = some pk → Wire (.welcome c w) pk
  | app {a} : Wire (.app a) a.ct

structure St where
  t : Nat
  w : World Term
  /-- leaves at which the attacker sits -/
  bad : Nat → Bool
  knows : Term → Prop

/-- Who is bad after the operation. -/
def marks (bad : Nat → Bool) : Choice → Sent Term → Nat → Bool
  | .add _ _ _ _ b, .welcome _ wel => fun k => if k = wel.joiner then b else bad k
  | .remove _ j _, .commit _ => fun k => if k = j then false else bad k
  | _, _ => bad

def St.next (S : St) (c : Choice) : St :=
  let r := step symPrims S.w (opOf S.t c)
  let bad := marks S.bad c r.2
  ⟨S.t + 1, r.1, bad, fun τ => S.knows τ ∨ Wire r.2 τ ∨ ∃ k h, bad k = true ∧ r.1 k = some h ∧ Held h τ⟩

/-- A group founded by the attacker (`b`) or an honest member. -/
def St.start (cid : Nat) (b : Bool) : St :=
  let w := founding symPrims ⟨cid, .pk (.fresh 0), 0⟩ (.fresh 0)
  ⟨1, w, fun k => k == 0 && b, fun τ => ∃ h, b = true ∧ w 0 = some h ∧ Held h τ⟩

def St.run (S : St) : List Choice → St
  | [] => S
  | c :: cs => (S.next c).run cs

/-- All operations are valid. -/
def St.Ok (S : St) : List Choice → Prop
  | [] => True
  | c :: cs => Valid symPrims S.w (opOf S.t c) ∧ (S.next c).Ok cs

/-- No member is bad. -/
def St.Clean (S : St) : Prop := ∀ k, (S.w k).isSome → S.bad k = false

/-! ### Bounds on what is known -/

/-- A point in time: the operation, who was bad after it, and the epoch it led to. -/
structure Moment where
  t : Nat
  i : Nat
  n : Nat
  bad : Nat → Prop
  epochSecret : Term
  commit : Prop
  joinInit : Option Term

abbrev path (m : Moment) : List Nat := directPath m.i m.n

abbrev leafName (m : Moment) : Term := .fresh (3 * m.t)

def secOf (Mo : Moment → Prop) (x : Nat) : Prop :=
  ∃ m, Mo m ∧ (x = 3 * m.t ∧ ¬ m.bad m.i ∨ x = 3 * m.t + 1 ∧ m.joinInit = none ∨ x = 3 * m.t + 2 ∧ ∀ k, ¬ m.bad k)

def leakOf (Mo : Moment → Prop) (τ : Term) : Prop :=
  ∃ m, Mo m ∧ m.commit ∧
    ((∃ y k, secAt symPrims (leafName m) (path m) y = some τ ∧ m.bad k ∧ Cov m.n y k) ∨
      (τ = m.epochSecret ∧ ∃ k, m.bad k) ∨ m.joinInit = some τ)

structure Good (Mo : Moment → Prop) : Prop where
  unique : ∀ m m', Mo m → Mo m' → m.t = m'.t → m = m'
  lt : ∀ m, Mo m → m.commit → m.i < m.n
  epoch : ∀ m, Mo m → m.commit → ∃ a b, m.epochSecret =
    labelled "epoch" (.pair (rootOf symPrims m.n m.i (leafName m)) (.pair a b))
  init : ∀ m τ, Mo m → m.joinInit = some τ → ∃ e, τ = labelled "init" e

theorem next_eq (τ : Term) : symPrims.next τ = labelled "path" τ := rfl

theorem labelled_inj {l l' : String} {τ τ' : Term} (h : labelled l τ = labelled l' τ') : l = l' ∧ τ = τ' := by
  unfold labelled at h
  injection h with h
  injection h with h1 h2
  injection h1 with h1
  exact ⟨h1, h2⟩

theorem iter_succ (a : Nat) (τ : Term) : symPrims.next^[a + 1] τ = labelled "path" (symPrims.next^[a] τ) := by
  rw [Function.iterate_succ_apply', next_eq]

theorem iter_inj {x y : Nat} : ∀ {a b : Nat}, symPrims.next^[a] (.fresh x) = symPrims.next^[b] (.fresh y) → a = b ∧ x = y
  | 0, 0, h => by
    have h : Term.fresh x = Term.fresh y := h
    injection h with h
    exact ⟨rfl, h⟩
  | 0, b + 1, h => by rw [iter_succ] at h; cases h
  | a + 1, 0, h => by rw [iter_succ] at h; cases h
  | a + 1, b + 1, h => by
    rw [iter_succ, iter_succ] at h
    obtain ⟨h1, h2⟩ := iter_inj (labelled_inj h).2
    exact ⟨by rw [h1], h2⟩

theorem secAt_get {M : Type} (P : Prims M) : ∀ {dp : List Nat} {cur : M} {y : Nat} {τ : M}, secAt P cur dp y = some τ →
    ∃ a, dp[a]? = some y ∧ τ = P.next^[a + 1] cur
  | [], _, _, _, h => by simp [secAt] at h
  | x :: dp, cur, y, τ, h => by
    rw [secAt_cons] at h
    by_cases e : y = x
    · rw [if_pos e, Option.some.injEq] at h
      exact ⟨0, by rw [e]; rfl, h.symm⟩
    · rw [if_neg e] at h
      obtain ⟨a, h1, h2⟩ := secAt_get P h
      exact ⟨a + 1, h1, by rw [h2]; rfl⟩

theorem secAt_of_get {M : Type} (P : Prims M) : ∀ {dp : List Nat} {cur : M} {y a : Nat}, dp.Nodup → dp[a]? = some y →
    secAt P cur dp y = some (P.next^[a + 1] cur)
  | [], _, _, _, _, h => by simp at h
  | x :: dp, cur, y, 0, _, h => by
    rw [List.getElem?_cons_zero, Option.some.injEq] at h
    rw [secAt_cons, if_pos h.symm]
    rfl
  | x :: dp, cur, y, a + 1, hd, h => by
    rw [List.nodup_cons] at hd
    rw [List.getElem?_cons_succ] at h
    have hne : y ≠ x := by rintro rfl; exact hd.1 (List.mem_of_getElem? h)
    rw [secAt_cons, if_neg hne, secAt_of_get P hd.2 h]
    rfl

/-- Path nodes get larger. -/
theorem dp_mono {n i a y z : Nat} (hi : i < n) (h1 : (directPath i n)[a]? = some y) (h2 : (directPath i n)[a + 1]? = some z) :
    Sub n y z := by
  have hn : 1 ≤ n := by omega
  have hlt := (List.getElem?_eq_some_iff.1 h1).1
  have hsplit : directPath i n = (directPath i n).take a ++ y :: (directPath i n).drop (a + 1) := by
    have := List.take_append_drop a (directPath i n)
    rw [List.drop_eq_getElem_cons hlt, (List.getElem?_eq_some_iff.1 h1).2] at this
    exact this.symm
  have hsuf := pathFrom_suffix hn _ _ _ y _ (leaf_in hi) (fuel_ok hn) hsplit
  have hy : y < nodeWidth n := ((mem_dp hi).1 (List.mem_of_getElem? h1)).1
  refine (pathFrom_above hn (nodeWidth n) y hy z ?_).2.1
  rw [← hsuf]
  have : ((directPath i n).drop (a + 1))[0]? = some z := by rw [List.getElem?_drop]; exact h2
  exact List.mem_of_getElem? this

/-- A co-path node is below the path node it belongs to. -/
theorem cp_sub {n : Nat} (hn : 1 ≤ n) : ∀ (f x : Nat), x < nodeWidth n →
    List.Forall₂ (fun c p => Sub n c p) (copathFrom n f x) (pathFrom n f x) := by
  intro f
  induction f with
  | zero => intro x _; exact .nil
  | succ f ih =>
    intro x hx
    rw [copathFrom, pathFrom]
    by_cases hr : x = root n
    · rw [if_pos hr, if_pos hr]; exact .nil
    · rw [if_neg hr, if_neg hr]
      have hp := parent_spec hn hx hr
      refine .cons ?_ (ih _ hp.inside)
      unfold sibling
      dsimp only
      split
      · exact sub_right hn hp.inside hp.inner
      · exact sub_left hn hp.inside hp.inner

section
variable {Mo : Moment → Prop}

abbrev PubM (Mo : Moment → Prop) : Term → Prop := Pub (secOf Mo) (leakOf Mo)

theorem pub_labelled {l : String} {τ : Term} (h : PubM Mo τ) : PubM Mo (labelled l τ) := .inr ⟨trivial, h⟩

theorem pub_iter {τ : Term} (h : PubM Mo τ) : ∀ a, PubM Mo (symPrims.next^[a] τ)
  | 0 => h
  | a + 1 => by rw [iter_succ]; exact pub_labelled (pub_iter h a)

variable (hG : Good Mo)
include hG

theorem leak_label {l : String} {τ : Term} (h : leakOf Mo (labelled l τ)) : l = "path" ∨ l = "epoch" ∨ l = "init" := by
  obtain ⟨m, hm, hc, ⟨y, k, h1, _⟩ | ⟨h1, _⟩ | h1⟩ := h
  · obtain ⟨a, _, h2⟩ := secAt_get symPrims h1
    rw [iter_succ] at h2
    exact .inl (labelled_inj h2).1
  · obtain ⟨a, b, h2⟩ := hG.epoch m hm hc
    rw [h2] at h1
    exact .inr (.inl (labelled_inj h1).1)
  · obtain ⟨e, h2⟩ := hG.init m _ hm h1
    exact .inr (.inr (labelled_inj h2).1)

theorem pub_other {l : String} {τ : Term} (hl : l ≠ "path" ∧ l ≠ "epoch" ∧ l ≠ "init") (h : PubM Mo (labelled l τ)) :
    PubM Mo τ := by
  rcases h with h | h
  · rcases leak_label hG h with e | e | e
    · exact absurd e hl.1
    · exact absurd e hl.2.1
    · exact absurd e hl.2.2
  · exact h.2

theorem pub_leaf {m : Moment} (hm : Mo m) : PubM Mo (leafName m) ↔ m.bad m.i := by
  constructor
  · intro h
    by_contra hb
    exact h ⟨m, hm, .inl ⟨rfl, hb⟩⟩
  · rintro hb ⟨m', hm', ⟨e, h⟩ | ⟨e, h⟩ | ⟨e, h⟩⟩
    · have := hG.unique m m' hm hm' (by omega)
      subst this
      exact h hb
    · omega
    · omega

theorem pub_joiner {m : Moment} (hm : Mo m) : PubM Mo (.fresh (3 * m.t + 1)) ↔ m.joinInit ≠ none := by
  constructor
  · intro h hb
    exact h ⟨m, hm, .inr (.inl ⟨rfl, hb⟩)⟩
  · rintro hb ⟨m', hm', ⟨e, h⟩ | ⟨e, h⟩ | ⟨e, h⟩⟩
    · omega
    · have := hG.unique m m' hm hm' (by omega)
      subst this
      exact hb h
    · omega

theorem pub_message {m : Moment} (hm : Mo m) : PubM Mo (.fresh (3 * m.t + 2)) ↔ ∃ k, m.bad k := by
  constructor
  · intro h
    by_contra hb
    exact h ⟨m, hm, .inr (.inr ⟨rfl, fun k hk => hb ⟨k, hk⟩⟩)⟩
  · rintro ⟨k, hk⟩ ⟨m', hm', ⟨e, h⟩ | ⟨e, h⟩ | ⟨e, h⟩⟩
    · omega
    · omega
    · have := hG.unique m m' hm hm' (by omega)
      subst this
      exact h k hk

/-- Path secrets are known only if a bad member is below. -/
theorem pub_path {m : Moment} (hm : Mo m) (hc : m.commit) : ∀ (a y : Nat), (path m)[a]? = some y →
    PubM Mo (symPrims.next^[a + 1] (leafName m)) → ∃ k, m.bad k ∧ Cov m.n y k := by
  have hi := hG.lt m hm hc
  intro a
  induction a with
  | zero =>
    intro y hy h
    rcases h with h | h
    · obtain ⟨m', hm', hc', ⟨y', k, h1, h2, h3⟩ | ⟨h1, _⟩ | h1⟩ := h
      · obtain ⟨a', h4, h5⟩ := secAt_get symPrims h1
        obtain ⟨e1, e2⟩ := iter_inj (a := 1) (b := a' + 1) h5
        have := hG.unique m m' hm hm' (by omega)
        subst this
        have : a' = 0 := by omega
        subst this
        rw [hy, Option.some.injEq] at h4
        subst h4
        exact ⟨k, h2, h3⟩
      · obtain ⟨a, b, h2⟩ := hG.epoch m' hm' hc'
        rw [h2] at h1
        exact absurd (labelled_inj (l := "path") h1).1 (by decide)
      · obtain ⟨e, h2⟩ := hG.init m' _ hm' h1
        exact absurd (labelled_inj (l := "path") h2).1 (by decide)
    · exact ⟨m.i, (pub_leaf hG hm).1 h.2, ((mem_dp hi).1 (List.mem_of_getElem? hy)).2.2⟩
  | succ a ih =>
    intro y hy h
    rw [iter_succ] at h
    rcases h with h | h
    · obtain ⟨m', hm', hc', ⟨y', k, h1, h2, h3⟩ | ⟨h1, _⟩ | h1⟩ := h
      · obtain ⟨a', h4, h5⟩ := secAt_get symPrims h1
        rw [show Term.hash (.pair (.lit "path") (symPrims.next^[a + 1] (leafName m))) =
          symPrims.next^[a + 1 + 1] (leafName m) from (iter_succ _ _).symm] at h5
        obtain ⟨e1, e2⟩ := iter_inj h5
        have := hG.unique m m' hm hm' (by omega)
        subst this
        have : a' = a + 1 := by omega
        subst this
        rw [hy, Option.some.injEq] at h4
        subst h4
        exact ⟨k, h2, h3⟩
      · obtain ⟨a, b, h2⟩ := hG.epoch m' hm' hc'
        rw [h2] at h1
        exact absurd (labelled_inj (l := "path") h1).1 (by decide)
      · obtain ⟨e, h2⟩ := hG.init m' _ hm' h1
        exact absurd (labelled_inj (l := "path") h2).1 (by decide)
    · have hlt := (List.getElem?_eq_some_iff.1 hy).1
      have hy' : (path m)[a]? = some ((path m)[a]'(by omega)) := List.getElem?_eq_getElem _
      obtain ⟨k, h1, h2⟩ := ih _ hy' h.2
      exact ⟨k, h1, (dp_mono hi hy' hy).cov h2⟩

theorem pub_secAt {m : Moment} (hm : Mo m) (hc : m.commit) {y : Nat} {τ : Term}
    (h : secAt symPrims (leafName m) (path m) y = some τ) : PubM Mo τ ↔ ∃ k, m.bad k ∧ Cov m.n y k := by
  constructor
  · intro hp
    obtain ⟨a, h1, h2⟩ := secAt_get symPrims h
    rw [h2] at hp
    exact pub_path hG hm hc a y h1 hp
  · rintro ⟨k, h1, h2⟩
    obtain ⟨a, h3, h4⟩ := secAt_get symPrims h
    rw [h4, iter_succ]
    rw [h4, iter_succ] at h
    exact .inl ⟨m, hm, hc, .inl ⟨y, k, h, h1, h2⟩⟩

theorem pub_root {m : Moment} (hm : Mo m) (hc : m.commit) (h : PubM Mo (rootOf symPrims m.n m.i (leafName m))) :
    ∃ k, m.bad k := by
  unfold rootOf at h
  split at h
  · rename_i e
    rcases h with h | h
    · obtain ⟨m', hm', hc', ⟨y', k, h1, h2, h3⟩ | ⟨h1, _⟩ | h1⟩ := h
      · obtain ⟨a', h4, h5⟩ := secAt_get symPrims h1
        obtain ⟨e1, e2⟩ := iter_inj (a := 1) (b := a' + 1) h5
        have := hG.unique m m' hm hm' (by omega)
        subst this
        rw [path, e] at h4
        simp at h4
      · obtain ⟨a, b, h2⟩ := hG.epoch m' hm' hc'
        rw [h2] at h1
        exact absurd (labelled_inj (l := "path") h1).1 (by decide)
      · obtain ⟨e, h2⟩ := hG.init m' _ hm' h1
        exact absurd (labelled_inj (l := "path") h2).1 (by decide)
    · exact ⟨m.i, (pub_leaf hG hm).1 h.2⟩
  · rename_i e
    have hlen : 0 < (path m).length := List.length_pos_iff.2 e
    have hy : (path m)[(path m).length - 1]? = some ((path m)[(path m).length - 1]'(by omega)) := List.getElem?_eq_getElem _
    have e2 : (path m).length - 1 + 1 = (directPath m.i m.n).length := by
      show (directPath m.i m.n).length - 1 + 1 = _
      have : 0 < (directPath m.i m.n).length := hlen
      omega
    rw [← e2] at h
    obtain ⟨k, h1, _⟩ := pub_path hG hm hc _ _ hy h
    exact ⟨k, h1⟩

/-- Epoch secrets are known only if a bad member is in the epoch. -/
theorem pub_epoch {m : Moment} (hm : Mo m) (hc : m.commit) : PubM Mo m.epochSecret ↔ ∃ k, m.bad k := by
  obtain ⟨a, b, he⟩ := hG.epoch m hm hc
  constructor
  · intro h
    rw [he] at h
    rcases h with h | h
    · obtain ⟨m', hm', hc', ⟨y', k, h1, h2, h3⟩ | ⟨h1, k, hk⟩ | h1⟩ := h
      · obtain ⟨a', h4, h5⟩ := secAt_get symPrims h1
        rw [iter_succ] at h5
        exact absurd (labelled_inj (l := "epoch") h5).1 (by decide)
      · obtain ⟨a', b', h2⟩ := hG.epoch m' hm' hc'
        rw [h2] at h1
        have h3 := (labelled_inj (l := "epoch") h1).2
        injection h3 with h3 _
        have hroot : ∀ x : Moment, ∃ c, rootOf symPrims x.n x.i (leafName x) = symPrims.next^[c] (leafName x) := by
          intro x
          unfold rootOf
          split
          · exact ⟨1, rfl⟩
          · exact ⟨_, rfl⟩
        obtain ⟨c, hc1⟩ := hroot m
        obtain ⟨c', hc2⟩ := hroot m'
        rw [hc1, hc2] at h3
        have := hG.unique m m' hm hm' (by have := (iter_inj h3).2; omega)
        subst this
        exact ⟨k, hk⟩
      · obtain ⟨e, h2⟩ := hG.init m' _ hm' h1
        exact absurd (labelled_inj (l := "epoch") h2).1 (by decide)
    · exact pub_root hG hm hc h.2.1
  · intro hk
    rw [he]
    exact .inl ⟨m, hm, hc, .inr (.inl ⟨he.symm, hk⟩)⟩

end

end Verif.TreeKem

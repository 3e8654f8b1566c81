import Verif.TreeKem.Tree
import Mathlib.Logic.Function.Iterate
/-
The direct path and its re-keying: what the committer produces and what another member gets out of it.
-/
namespace Verif.TreeKem

open Verif.TreeMath

instance (n x l : Nat) : Decidable (Cov n x l) := inferInstanceAs (Decidable (_ ∧ _))

/-! ### Direct path -/

theorem sub_parent {n x : Nat} (hn : 1 ≤ n) (hx : x < nodeWidth n) (hr : x ≠ root n) : Sub n x (parent x n) := by
  have hp := parent_spec hn hx hr
  rcases hp.child with e | e
  · have := sub_left hn hp.inside hp.inner
    rwa [← e] at this
  · have := sub_right hn hp.inside hp.inner
    rwa [← e] at this

theorem pathFrom_above {n : Nat} (hn : 1 ≤ n) : ∀ (f x : Nat), x < nodeWidth n →
    ∀ p ∈ pathFrom n f x, level x < level p ∧ Sub n x p ∧ p < nodeWidth n := by
  intro f
  induction f with
  | zero => intro x _ p hp; simp [pathFrom] at hp
  | succ f ih =>
    intro x hx p hp
    rw [pathFrom] at hp
    by_cases hr : x = root n
    · rw [if_pos hr] at hp; simp at hp
    · rw [if_neg hr] at hp
      have h1 := level_lt_parent hn hx hr
      have h2 := (parent_spec hn hx hr).inside
      have h3 := sub_parent hn hx hr
      rcases List.mem_cons.1 hp with rfl | hp
      · exact ⟨h1, h3, h2⟩
      · obtain ⟨a, b, c⟩ := ih _ h2 p hp
        exact ⟨by omega, h3.trans b, c⟩

theorem pathFrom_nodup {n : Nat} (hn : 1 ≤ n) : ∀ (f x : Nat), x < nodeWidth n → (pathFrom n f x).Nodup := by
  intro f
  induction f with
  | zero => intro x _; simp [pathFrom]
  | succ f ih =>
    intro x hx
    rw [pathFrom]
    by_cases hr : x = root n
    · rw [if_pos hr]; simp
    · rw [if_neg hr, List.nodup_cons]
      have h2 := (parent_spec hn hx hr).inside
      refine ⟨fun h => ?_, ih _ h2⟩
      have := (pathFrom_above hn f _ h2 _ h).1
      omega

theorem dp_nodup {n i : Nat} (hi : i < n) : (directPath i n).Nodup := pathFrom_nodup (by omega) _ _ (leaf_in hi)

theorem mem_dp {n i a : Nat} (hi : i < n) : a ∈ directPath i n ↔ a < nodeWidth n ∧ level a ≠ 0 ∧ Cov n a i := by
  have hn : 1 ≤ n := by omega
  have h := C21_path_is_ancestors (a := a) hi
  rw [List.mem_cons] at h
  constructor
  · intro hm
    obtain ⟨h1, h2⟩ := h.1 (.inr hm)
    refine ⟨h1, ?_, (below_leaf_iff hn _ _ _ le_rfl h1).1 h2⟩
    have := (pathFrom_above hn _ _ (leaf_in hi) a hm).1
    omega
  · rintro ⟨h1, h2, h3⟩
    rcases h.2 ⟨h1, (below_leaf_iff hn _ _ _ le_rfl h1).2 h3⟩ with e | e
    · rw [e, leaf_level] at h2; exact absurd rfl h2
    · exact e

theorem dp_not_leaf {n i a : Nat} (hi : i < n) (h : a ∈ directPath i n) (j : Nat) : a ≠ leafToNode j := by
  rintro rfl
  exact ((mem_dp hi).1 h).2.1 (leaf_level j)

theorem cp_not_cov {n i c : Nat} (hi : i < n) (h : c ∈ copath i n) : ¬ Cov n c i :=
  (copath_cov (by omega) (nodeWidth n) (leafToNode i) i (leaf_in hi) (fuel_ok (by omega)) hi).1 (by rw [cov_leaf hi]) c h

theorem cp_in {n i c : Nat} (hi : i < n) (h : c ∈ copath i n) : c < nodeWidth n := (C21_direct_path hi).2.2.2.1 c h

/-- Nothing on the path, nor its leaf, is below a co-path node. -/
theorem dp_not_sub {n i x c : Nat} (hi : i < n) (hx : x = leafToNode i ∨ x ∈ directPath i n) (hc : c ∈ copath i n) :
    ¬ Sub n x c := by
  intro h
  refine cp_not_cov hi hc (h.cov ?_)
  rcases hx with rfl | hx
  · rw [cov_leaf hi]
  · exact ((mem_dp hi).1 hx).2.2

theorem pathFrom_fuel {n : Nat} (hn : 1 ≤ n) : ∀ (f g x : Nat), x < nodeWidth n → top n < f + level x → top n < g + level x →
    pathFrom n f x = pathFrom n g x := by
  intro f
  induction f with
  | zero => intro g x hx h; have := level_le_top hn hx; omega
  | succ f ih =>
    intro g x hx hf hg
    cases g with
    | zero => have := level_le_top hn hx; omega
    | succ g =>
      rw [pathFrom, pathFrom]
      by_cases hr : x = root n
      · rw [if_pos hr, if_pos hr]
      · rw [if_neg hr, if_neg hr]
        have h1 := level_lt_parent hn hx hr
        rw [ih g _ (parent_spec hn hx hr).inside (by omega) (by omega)]

/-- Above a node of a path comes the path of that node. -/
theorem pathFrom_suffix {n : Nat} (hn : 1 ≤ n) : ∀ (f x : Nat) (pre : List Nat) (a : Nat) (suf : List Nat), x < nodeWidth n →
    top n < f + level x → pathFrom n f x = pre ++ a :: suf → suf = pathFrom n (nodeWidth n) a := by
  intro f
  induction f with
  | zero => intro x _ _ _ hx h; have := level_le_top hn hx; omega
  | succ f ih =>
    intro x pre a suf hx hf h
    rw [pathFrom] at h
    by_cases hr : x = root n
    · rw [if_pos hr] at h; simp at h
    · rw [if_neg hr] at h
      have h1 := level_lt_parent hn hx hr
      have h2 := (parent_spec hn hx hr).inside
      cases pre with
      | nil =>
        rw [List.nil_append, List.cons.injEq] at h
        obtain ⟨rfl, rfl⟩ := h
        have := top_lt hn
        exact pathFrom_fuel hn _ _ _ h2 (by omega) (by omega)
      | cons p pre =>
        rw [List.cons_append, List.cons.injEq] at h
        exact ih _ _ _ _ h2 (by omega) h.2

/-! ### Secrets along a path -/

variable {M : Type} (P : Prims M)

/-- The secret of each node of the path, `cur` being the one below. -/
def secAt : M → List Nat → Own M
  | _, [] => fun _ => none
  | cur, x :: dp => fun y => if y = x then some (P.next cur) else secAt (P.next cur) dp y

def setAll : M → List Nat → Own M → Own M
  | _, [], own => own
  | cur, x :: dp, own => setAll (P.next cur) dp (own.set x (P.next cur))

/-- The tree with the path re-keyed. -/
def instT : M → List Nat → Tree M → Tree M
  | _, [], t => t
  | cur, x :: dp, t => instT (P.next cur) dp (t.set x (.parent (P.pub (P.next cur)) []))

theorem secAt_cons (cur : M) (x : Nat) (dp : List Nat) (y : Nat) :
    secAt P cur (x :: dp) y = if y = x then some (P.next cur) else secAt P (P.next cur) dp y := rfl

theorem secAt_isSome {cur : M} {dp : List Nat} {y : Nat} : (secAt P cur dp y).isSome ↔ y ∈ dp := by
  induction dp generalizing cur with
  | nil => simp [secAt]
  | cons x dp ih =>
    rw [secAt_cons, List.mem_cons]
    by_cases e : y = x
    · rw [if_pos e]; simp [e]
    · rw [if_neg e, ih]; simp [e]

theorem secAt_none {cur : M} {dp : List Nat} {y : Nat} (h : y ∉ dp) : secAt P cur dp y = none := by
  rw [← Option.not_isSome_iff_eq_none, secAt_isSome]; exact h

theorem secAt_append {cur : M} {pre rest : List Nat} {y : Nat} (h : y ∉ pre) :
    secAt P cur (pre ++ rest) y = secAt P (P.next^[pre.length] cur) rest y := by
  induction pre generalizing cur with
  | nil => rfl
  | cons x pre ih =>
    rw [List.mem_cons, not_or] at h
    rw [List.cons_append, secAt_cons, if_neg h.1, ih h.2]
    rfl

theorem setAll_eq {cur : M} {dp : List Nat} (hd : dp.Nodup) (own : Own M) (y : Nat) :
    setAll P cur dp own y = if y ∈ dp then secAt P cur dp y else own y := by
  induction dp generalizing cur own with
  | nil => simp [setAll]
  | cons x dp ih =>
    rw [List.nodup_cons] at hd
    rw [setAll, ih hd.2, secAt_cons]
    by_cases e : y = x
    · rw [if_neg (by rw [e]; exact hd.1), if_pos (by simp [e]), if_pos e]
      unfold Own.set; rw [if_pos e]
    · rw [if_neg e]
      by_cases h : y ∈ dp
      · rw [if_pos h, if_pos (List.mem_cons_of_mem _ h)]
      · rw [if_neg h, if_neg (by simp [e, h])]
        unfold Own.set; rw [if_neg e]

theorem instT_length (cur : M) (dp : List Nat) (t : Tree M) : (instT P cur dp t).length = t.length := by
  induction dp generalizing cur t with
  | nil => rfl
  | cons x dp ih => rw [instT, ih, List.length_set]

theorem nd_instT_out {cur : M} {dp : List Nat} {t : Tree M} (hin : ∀ x ∈ dp, x < t.length) {y : Nat} (h : y ∉ dp) :
    nd (instT P cur dp t) y = nd t y := by
  induction dp generalizing cur t with
  | nil => rfl
  | cons x dp ih =>
    rw [List.mem_cons, not_or] at h
    rw [instT, ih (fun x hx => by rw [List.length_set]; exact hin x (List.mem_cons_of_mem _ hx)) h.2,
      nd_set (hin x (by simp)), if_neg h.1]

theorem nd_instT_in {cur : M} {dp : List Nat} (hd : dp.Nodup) {t : Tree M} (hin : ∀ x ∈ dp, x < t.length) {y : Nat} {σ : M}
    (h : secAt P cur dp y = some σ) : nd (instT P cur dp t) y = .parent (P.pub σ) [] := by
  induction dp generalizing cur t with
  | nil => simp [secAt] at h
  | cons x dp ih =>
    rw [List.nodup_cons] at hd
    have hin' : ∀ z ∈ dp, z < (t.set x (.parent (P.pub (P.next cur)) [])).length :=
      fun x hx => by rw [List.length_set]; exact hin x (List.mem_cons_of_mem _ hx)
    rw [secAt_cons] at h
    by_cases e : y = x
    · rw [if_pos e, Option.some.injEq] at h
      rw [instT, nd_instT_out P hin' (by rw [e]; exact hd.1), nd_set (hin x (by simp)), if_pos e, h]
    · rw [if_neg e] at h
      rw [instT, ih hd.2 hin' h]

theorem ratchetUp_eq (cur : M) (x : Nat) (dp : List Nat) (own : Own M) :
    ratchetUp P (P.next cur) (x :: dp) own = (P.next^[(x :: dp).length] cur, setAll P cur (x :: dp) own) := by
  induction dp generalizing cur x own with
  | nil => rfl
  | cons y dp ih =>
    rw [ratchetUp, ih (P.next cur) y]
    rfl

/-! ### What the committer sends -/

def SealedTo (t : Tree M) (ps : M) (r : Nat) (ct : M) : Prop := ∃ pk rnd, (nd t r).pk? = some pk ∧ ct = P.enc pk ps rnd

/-- The update path is the honest one for these secrets and this tree. -/
def Honest (t : Tree M) (n : Nat) : M → List Nat → List Nat → List (UpdNode M) → Prop
  | _, [], [], [] => True
  | cur, _ :: dp, c :: cp, u :: us =>
    u.pk = P.pub (P.next cur) ∧ List.Forall₂ (SealedTo P t (P.next cur)) (res t n c) u.cts ∧ Honest t n (P.next cur) dp cp us
  | _, _, _, _ => False

theorem pk_of_not_blank {v : Node M} (h : v ≠ .blank) : ∃ pk, v.pk? = some pk := by
  cases v with
  | blank => exact absurd rfl h
  | leaf l => exact ⟨_, rfl⟩
  | parent pk um => exact ⟨_, rfl⟩

/-- All public keys in the tree can be used. -/
def GoodKeys (t : Tree M) : Prop := ∀ x pk, (nd t x).pk? = some pk → P.okPk pk = true

theorem sealAll_ok {t t0 : Tree M} (hg : GoodKeys P t0) {ps : M} {rnd : Nat → Nat} : ∀ (rs : List Nat) (j : Nat),
    (∀ r ∈ rs, r < t.length ∧ nd t r = nd t0 r ∧ nd t r ≠ .blank) →
    ∃ cts, sealAll P t ps rnd j rs = .ok cts ∧ List.Forall₂ (SealedTo P t0 ps) rs cts := by
  intro rs
  induction rs with
  | nil => intro j _; exact ⟨[], rfl, .nil⟩
  | cons r rs ih =>
    intro j h
    obtain ⟨h1, h2, h3⟩ := h r (by simp)
    obtain ⟨pk, hpk⟩ := pk_of_not_blank h3
    obtain ⟨cts, e, hf⟩ := ih (j + 1) fun r hr => h r (List.mem_cons_of_mem _ hr)
    refine ⟨P.enc pk ps (rnd j) :: cts, ?_, .cons ⟨pk, rnd j, by rw [← h2]; exact hpk, rfl⟩ hf⟩
    rw [sealAll, getElem?_nd h1]
    dsimp only
    rw [hpk]
    dsimp only
    rw [if_pos (hg r pk (by rw [← h2]; exact hpk)), e]
    rfl

theorem genLoop_ok {t0 : Tree M} {n : Nat} (hs : Shape t0 n) (hg : GoodKeys P t0) (rnd : Nat → Nat → Nat) :
    ∀ (dp cp : List Nat) (k : Nat) (cur : M) (t : Tree M) (own : Own M), t.length = t0.length → dp.length = cp.length →
    (∀ x ∈ dp, x < nodeWidth n) → (∀ c ∈ cp, c < nodeWidth n) → (∀ x ∈ dp, ∀ c ∈ cp, ¬ Sub n x c) →
    (∀ c ∈ cp, ∀ y, y < nodeWidth n → Sub n y c → nd t y = nd t0 y) →
    ∃ us, genLoop P rnd k dp cp cur t own = (instT P cur dp t, .ok (us, P.next^[dp.length] cur, setAll P cur dp own)) ∧
      Honest P t0 n cur dp cp us := by
  intro dp
  induction dp with
  | nil =>
    intro cp k cur t own _ hl _ _ _ _
    cases cp with
    | nil => exact ⟨[], rfl, trivial⟩
    | cons c cp => simp at hl
  | cons x dp ih =>
    intro cp k cur t own htl hl hdp hcp hsub hag
    cases cp with
    | nil => simp at hl
    | cons c cp =>
      have hw := hs.toSize.width
      have hx : x < t.length := by rw [htl, ← hw]; exact hdp x (by simp)
      have hc := hcp c (by simp)
      have hag1 : ∀ c' ∈ c :: cp, ∀ y, y < nodeWidth n → Sub n y c' →
          nd (t.set x (.parent (P.pub (P.next cur)) [])) y = nd t0 y := by
        intro c' hc' y hy hyc
        rw [nd_set hx, if_neg, hag c' hc' y hy hyc]
        rintro rfl
        exact hsub y (by simp) c' hc' hyc
      have hsz : Size (t.set x (.parent (P.pub (P.next cur)) [])) n := hs.toSize.of_len (by rw [List.length_set, htl])
      have hres : res (t.set x (.parent (P.pub (P.next cur)) [])) n c = res t0 n c :=
        resP_congr hs.pos _ _ hc (hag1 c (by simp))
      obtain ⟨cts, e1, hf⟩ := sealAll_ok P (t := t.set x (.parent (P.pub (P.next cur)) [])) hg (ps := P.next cur) (rnd := rnd k)
        (res t0 n c) 0 (by
          intro r hr
          obtain ⟨a, b, d⟩ := resP_mem hs _ _ _ hc hr
          have := hag1 c (by simp) r a b
          exact ⟨by rw [List.length_set, htl, ← hw]; exact a, this, by rw [this]; exact d⟩)
      obtain ⟨us, e2, hh⟩ := ih cp (k + 1) (P.next cur) (t.set x (.parent (P.pub (P.next cur)) [])) (own.set x (P.next cur))
        (by rw [List.length_set, htl]) (by simpa using hl) (fun y hy => hdp y (List.mem_cons_of_mem _ hy))
        (fun y hy => hcp y (List.mem_cons_of_mem _ hy))
        (fun y hy c' hc' => hsub y (List.mem_cons_of_mem _ hy) c' (List.mem_cons_of_mem _ hc'))
        (fun c' hc' => hag1 c' (List.mem_cons_of_mem _ hc'))
      refine ⟨⟨P.pub (P.next cur), cts⟩ :: us, ?_, rfl, hf, hh⟩
      rw [genLoop]
      dsimp only
      rw [setC_some hx]
      dsimp only
      rw [resolution_eq hsz hc, hres]
      dsimp only
      rw [e1]
      dsimp only
      rw [e2]
      rfl

theorem honest_length {t : Tree M} {n : Nat} : ∀ (dp cp : List Nat) (us : List (UpdNode M)) (cur : M),
    Honest P t n cur dp cp us → dp.length = us.length
  | [], [], [], _, _ => rfl
  | x :: dp, c :: cp, u :: us, _, h => by rw [List.length_cons, List.length_cons, honest_length dp cp us _ h.2.2]
  | [], [], _ :: _, _, h => h.elim
  | [], _ :: _, _, _, h => h.elim
  | _ :: _, [], _, _, h => h.elim
  | _ :: _, _ :: _, [], _, h => h.elim

theorem install_ok {t0 : Tree M} {n : Nat} : ∀ (dp cp : List Nat) (us : List (UpdNode M)) (cur : M) (t : Tree M),
    Honest P t0 n cur dp cp us → (∀ x ∈ dp, x < t.length) → install dp us t = some (instT P cur dp t)
  | [], _, _, _, _, _, _ => rfl
  | x :: dp, c :: cp, u :: us, cur, t, h, hin => by
    rw [install, setC_some (hin x (by simp)), Option.bind_some, instT, h.1]
    exact install_ok dp cp us _ _ h.2.2 fun y hy => by rw [List.length_set]; exact hin y (List.mem_cons_of_mem _ hy)
  | _ :: _, [], _, _, _, h, _ => h.elim
  | _ :: _, _ :: _, [], _, _, h, _ => h.elim

/-! ### What another member gets out of it -/

/-- What a member `j` holds fits the tree. -/
structure Holds (t : Tree M) (n j : Nat) (own : Own M) : Prop where
  above : ∀ r s, own r = some s → Cov n r j
  fits : ∀ r s, own r = some s → nd t r ≠ .blank → (nd t r).pk? = some (P.pub s)
  leaf : (own (leafToNode j)).isSome
  inner : ∀ a, nd t a ≠ .blank → level a ≠ 0 → Cov n a j → j ∉ (nd t a).unmerged → (own a).isSome

theorem tryOpen_none {own : Own M} : ∀ (rs : List Nat) (cts : List M), (∀ r ∈ rs, own r = none) → tryOpen P own rs cts = none
  | [], _, _ => rfl
  | r :: rs, cts, h => by
    rw [tryOpen, h r (by simp)]
    exact tryOpen_none rs _ fun r hr => h r (List.mem_cons_of_mem _ hr)

theorem tryOpen_ok (hP : Lawful P) {own : Own M} {t : Tree M} {ps : M} (hps : P.isSecret ps = true) :
    ∀ (rs : List Nat) (cts : List M), List.Forall₂ (SealedTo P t ps) rs cts →
    (∀ r ∈ rs, ∀ s, own r = some s → (nd t r).pk? = some (P.pub s)) → (∃ r ∈ rs, (own r).isSome) →
    tryOpen P own rs cts = some (.ok ps) := by
  intro rs cts hf
  induction hf with
  | nil => intro _ h; simp at h
  | @cons r ct rs cts h1 _ ih =>
    intro hfit hex
    rw [tryOpen]
    cases e : own r with
    | none =>
      refine ih (fun r hr => hfit r (List.mem_cons_of_mem _ hr)) ?_
      obtain ⟨r', h, h'⟩ := hex
      rcases List.mem_cons.1 h with rfl | h
      · rw [e] at h'; simp at h'
      · exact ⟨r', h, h'⟩
    | some s =>
      obtain ⟨pk, rnd, h2, rfl⟩ := h1
      have := hfit r (by simp) s e
      rw [h2, Option.some.injEq] at this
      subst this
      dsimp only [List.head?_cons]
      rw [hP.dec_enc]
      dsimp only
      rw [if_pos hps]

/-- Processing an honest update path: `t` is the re-keyed tree, `t0` the one the update was made for. -/
theorem findOpen_ok (hP : Lawful P) {t t0 : Tree M} {n j : Nat} (hs0 : Shape t0 n) (hs : Size t n) (hj : j < n)
    {own : Own M} (hh : Holds P t0 n j own) (hjl : nd t0 (leafToNode j) ≠ .blank) :
    ∀ (f x : Nat) (cur : M) (us : List (UpdNode M)), x < nodeWidth n → top n < f + level x → ¬ Cov n x j →
    Honest P t0 n cur (pathFrom n f x) (copathFrom n f x) us →
    (∀ c ∈ copathFrom n f x, ∀ y, y < nodeWidth n → Sub n y c → nd t y = nd t0 y) →
    ∃ own', findOpen P t own (copathFrom n f x) (pathFrom n f x) us =
        .ok (P.next^[(pathFrom n f x).length] cur, own') ∧
      ∀ y, own' y = if y ∈ pathFrom n f x ∧ Cov n y j then secAt P cur (pathFrom n f x) y else own y := by
  intro f
  induction f with
  | zero => intro x cur us hx h; have := level_le_top hs.pos hx; omega
  | succ f ih =>
    intro x cur us hx hf hxj hho hag
    rw [pathFrom] at hho ⊢
    rw [copathFrom] at hho hag ⊢
    by_cases hr : x = root n
    · exact absurd (by rw [hr, cov_root hs.pos]; exact hj) hxj
    rw [if_neg hr] at hho hag ⊢
    rw [if_neg hr] at hho ⊢
    cases us with
    | nil => exact hho.elim
    | cons u us =>
      obtain ⟨-, hf2, hho⟩ := hho
      have hsib := sibling_spec hs.pos hx hr
      have hp := parent_spec hs.pos hx hr
      have hlv := level_lt_parent hs.pos hx hr
      have hc := hsib.inside
      rw [findOpen, resolution_eq hs hc]
      dsimp only [List.head?_cons, Option.map_some, Option.getD_some]
      rw [show res t n (sibling x n) = res t0 n (sibling x n) from resP_congr hs.pos _ _ hc (hag _ (by simp))]
      by_cases hcj : Cov n (sibling x n) j
      · have hopen : tryOpen P own (res t0 n (sibling x n)) u.cts = some (.ok (P.next cur)) := by
          refine tryOpen_ok P hP (hP.secretNext _) _ _ hf2 ?_ ?_
          · intro r hr s hs'
            exact hh.fits r s hs' (resP_mem hs0 _ _ _ hc hr).2.2
          · rcases resP_reach hs.pos hjl 64 _ (level_lt_64 hs.pos hs.cap hc) hc hcj with h | ⟨r, h1, h2, h3, h4, h5, h6⟩
            · exact ⟨_, h, hh.leaf⟩
            · exact ⟨r, h1, hh.inner r h2 h4 h5 h6⟩
        rw [hopen]
        dsimp only
        refine ⟨setAll P cur (parent x n :: pathFrom n f (parent x n)) own, ?_, ?_⟩
        · rw [Res.bind, ratchetUp_eq]
        · intro y
          have hnd := pathFrom_nodup hs.pos (f + 1) x hx
          rw [pathFrom, if_neg hr] at hnd
          rw [setAll_eq P hnd]
          have hall : ∀ y ∈ parent x n :: pathFrom n f (parent x n), Cov n y j := by
            intro y hy
            have hpj := (hsib.split j).2 (.inr hcj)
            rcases List.mem_cons.1 hy with rfl | hy
            · exact hpj
            · exact (pathFrom_above hs.pos _ _ hp.inside y hy).2.1.cov hpj
          by_cases hy : y ∈ parent x n :: pathFrom n f (parent x n)
          · rw [if_pos hy, if_pos ⟨hy, hall y hy⟩]
          · rw [if_neg hy, if_neg (fun h => hy h.1)]
      · have hnone : tryOpen P own (res t0 n (sibling x n)) u.cts = none := by
          refine tryOpen_none P _ _ fun r hr => ?_
          cases e : own r with
          | none => rfl
          | some s => exact absurd ((resP_mem hs0 _ _ _ hc hr).2.1.cov (hh.above r s e)) hcj
        rw [hnone]
        dsimp only [List.tail_cons]
        have hpj : ¬ Cov n (parent x n) j := by
          rw [hsib.split j]; rintro (h | h) <;> contradiction
        obtain ⟨own', e1, e2⟩ := ih (parent x n) (P.next cur) us hp.inside (by omega) hpj hho
          (fun c hc => hag c (List.mem_cons_of_mem _ hc))
        refine ⟨own', by rw [e1]; rfl, fun y => ?_⟩
        rw [e2, secAt_cons]
        by_cases e : y = parent x n
        · subst e
          rw [if_neg (fun h => hpj h.2), if_neg (fun h => hpj h.2)]
        · by_cases hy : y ∈ pathFrom n f (parent x n) ∧ Cov n y j
          · rw [if_pos hy, if_pos ⟨List.mem_cons_of_mem _ hy.1, hy.2⟩, if_neg e]
          · rw [if_neg hy, if_neg (by rintro ⟨h1, h2⟩; exact hy ⟨by simpa [e] using h1, h2⟩)]

end Verif.TreeKem

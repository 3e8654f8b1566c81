import Verif.Ranks.Spec
import Verif.Hierarchy.Props
/-
The invariant of a group with a hierarchy.
-/
namespace Verif.Ranks
open Verif Verif.Hierarchy

variable {M : Type} {P : Prims M}

/-! ### Leaves -/

theorem leafOf_mem {ls : List (Option (Cid × M))} {c : Cid} {pk : M} (h : leafOf ls c = some pk) : some (c, pk) ∈ ls := by
  induction ls with
  | nil => simp [leafOf] at h
  | cons l ls ih =>
    cases l with
    | none => exact List.mem_cons_of_mem _ (ih h)
    | some l =>
      obtain ⟨x, k⟩ := l
      simp only [leafOf] at h
      by_cases hx : x = c
      · rw [if_pos hx] at h
        subst hx
        cases h
        exact List.mem_cons_self
      · rw [if_neg hx] at h
        exact List.mem_cons_of_mem _ (ih h)

theorem leafOf_of_mem {ls : List (Option (Cid × M))} {c : Cid} {pk : M} (h : some (c, pk) ∈ ls) : ∃ k, leafOf ls c = some k := by
  induction ls with
  | nil => simp at h
  | cons l ls ih =>
    cases l with
    | none =>
      simp only [List.mem_cons, reduceCtorEq, false_or] at h
      exact ih h
    | some l =>
      obtain ⟨x, k⟩ := l
      simp only [leafOf]
      by_cases hx : x = c
      · exact ⟨k, if_pos hx⟩
      · rw [if_neg hx]
        simp only [List.mem_cons, Option.some.injEq, Prod.mk.injEq] at h
        rcases h with ⟨rfl, -⟩ | h
        · exact absurd rfl hx
        · exact ih h

theorem mem_addLeaf {kp l : Cid × M} {ls : List (Option (Cid × M))} (h : some l ∈ addLeaf kp ls) : l = kp ∨ some l ∈ ls := by
  induction ls with
  | nil => simpa [addLeaf] using h
  | cons x ls ih =>
    cases x with
    | none =>
      simp only [addLeaf, List.mem_cons, Option.some.injEq] at h
      rcases h with h | h
      · exact .inl h
      · exact .inr (List.mem_cons_of_mem _ h)
    | some x =>
      simp only [addLeaf, List.mem_cons, Option.some.injEq] at h
      rcases h with rfl | h
      · exact .inr List.mem_cons_self
      · rcases ih h with h | h
        · exact .inl h
        · exact .inr (List.mem_cons_of_mem _ h)

theorem mem_removeLeaf {x : Cid} {l : Cid × M} {ls : List (Option (Cid × M))} (h : some l ∈ removeLeaf x ls) : some l ∈ ls := by
  induction ls with
  | nil => simp [removeLeaf] at h
  | cons y ls ih =>
    cases y with
    | none =>
      simp only [removeLeaf, List.mem_cons, reduceCtorEq, false_or] at h
      exact List.mem_cons_of_mem _ (ih h)
    | some y =>
      obtain ⟨c, pk⟩ := y
      simp only [removeLeaf] at h
      by_cases hx : c = x
      · rw [if_pos hx] at h
        simp only [List.mem_cons, reduceCtorEq, false_or] at h
        exact List.mem_cons_of_mem _ h
      · rw [if_neg hx] at h
        simp only [List.mem_cons] at h
        rcases h with h | h
        · rw [h]; exact List.mem_cons_self
        · exact List.mem_cons_of_mem _ (ih h)

theorem mem_commit {g : Group M} {o c : Cid} {s k pk : M} (h : some (c, pk) ∈ (g.commit P o s k).leaves) :
    c = o ∨ some (c, pk) ∈ g.leaves := by
  unfold Group.commit at h
  cases hl : g.leaves with
  | nil => rw [hl] at h; simp at h
  | cons l ls =>
    rw [hl] at h
    simp only [List.mem_cons, Option.some.injEq, Prod.mk.injEq] at h
    rcases h with ⟨rfl, -⟩ | h
    · exact .inl rfl
    · exact .inr (List.mem_cons_of_mem _ h)

/-! ### Assignments -/

theorem derive_root_member (root : M) (pol : Policy) (p : Path) :
    (rootMember root pol).derive P p = some ⟨p, node P root p, pol⟩ := by
  have := deriveSecret_append P root [] p
  rw [List.nil_append] at this
  unfold Member.derive rootMember node
  rw [this]
  rfl

theorem open_sealed (hP : Lawful P) (a : Sealed M) {s : M} (h : a.pk = P.leafPub s) :
    openAssignment P (a.ct P) s = some a.member := by
  unfold Sealed.ct
  rw [h]
  exact C29_assignment P hP a.member s a.r

/-- What `demote` seals. -/
theorem reseal_eq (root : M) (pol : Policy) (ls : List (Option (Cid × M))) (r : Cid → Nat) (ranks : List (Cid × Path)) :
    reseal P (rootMember root pol) ls r ranks =
      some (ranks.filterMap fun e => (leafOf ls e.1).map fun pk => ⟨e.1, ⟨e.2, node P root e.2, pol⟩, pk, r e.1⟩) := by
  induction ranks with
  | nil => rfl
  | cons e ranks ih =>
    obtain ⟨x, p⟩ := e
    simp only [reseal]
    cases h : leafOf ls x with
    | none => simp only [List.filterMap_cons, h, Option.map_none]; exact ih
    | some pk => simp only [derive_root_member, ih, Option.map_some, List.filterMap_cons, h]

/-- The last assignment of a queue. -/
def lastAssign : List (Routed M) → Option M
  | [] => none
  | .assign ct :: q => some ((lastAssign q).getD ct)
  | .welcome _ :: q => lastAssign q

theorem lastAssign_append (q q' : List (Routed M)) : lastAssign (q ++ q') = (lastAssign q').or (lastAssign q) := by
  induction q with
  | nil => simp [lastAssign]
  | cons p q ih =>
    cases p with
    | assign ct =>
      simp only [List.cons_append, lastAssign, ih]
      cases lastAssign q' <;> simp
    | welcome g => simpa only [List.cons_append, lastAssign] using ih

theorem lastAssign_none {q : List (Routed M)} : lastAssign q = none ↔ ∀ ct, Routed.assign ct ∉ q := by
  induction q with
  | nil => simp [lastAssign]
  | cons p q ih =>
    cases p with
    | assign ct =>
      simp only [lastAssign, reduceCtorEq, false_iff]
      intro h
      exact h ct List.mem_cons_self
    | welcome g => simp only [lastAssign, ih, List.mem_cons, reduceCtorEq, false_or]

/-- The client will be at `x` once it has got all that is under way to it. -/
def Settles (P : Prims M) (q : List (Routed M)) (cl : Client M) (x : Member M) : Prop :=
  match lastAssign q with
  | none => cl.mode = some x.policy ∧ cl.self = some x
  | some ct => openAssignment P ct cl.leafSecret = some x

theorem Settles.append {q q' : List (Routed M)} {cl : Client M} {x : Member M} (h : Settles P q cl x) (hq : lastAssign q' = none) :
    Settles P (q ++ q') cl x := by
  unfold Settles at h ⊢
  rw [lastAssign_append, hq]
  exact h

theorem Settles.last {q q' : List (Routed M)} {cl : Client M} {x : Member M} {ct : M} (hq : lastAssign q' = some ct)
    (ho : openAssignment P ct cl.leafSecret = some x) : Settles P (q ++ q') cl x := by
  unfold Settles
  rw [lastAssign_append, hq]
  exact ho

/-- The invariant. -/
structure Inv (P : Prims M) (o : Cid) (pol : Policy) (root : M) (y : Sys M) : Prop where
  ocid : y.owner.cid = o
  isOwner : y.owner.isOwner = true
  mode : y.owner.mode = some pol
  self : y.owner.self = some (rootMember root pol)
  noRank : y.owner.ranks.get? o = none
  nodup : AMap.NodupKeys y.owner.ranks
  group : ∃ g, y.owner.group = some g
  leaves : ∀ c, c ≠ o → ∀ g pk, y.owner.group = some g → some (c, pk) ∈ g.leaves →
    ∃ cl, y.clients c = some cl ∧ pk = P.leafPub cl.leafSecret
  client : ∀ c cl, y.clients c = some cl → c ≠ o ∧ cl.isOwner = false
  kp : ∀ c kp, y.kps c = some kp → ∃ cl, y.clients c = some cl ∧ kp = (c, P.leafPub cl.leafSecret)
  queue : ∀ c ct, Routed.assign ct ∈ y.routed c →
    ∃ cl m, y.clients c = some cl ∧ openAssignment P ct cl.leafSecret = some m ∧ m.policy = pol
  unranked : ∀ c cl, y.clients c = some cl → y.owner.ranks.get? c = none → cl.mode = none ∧ cl.self = none ∧
    ∀ ct, Routed.assign ct ∉ y.routed c
  ranked : ∀ c cl p, y.clients c = some cl → y.owner.ranks.get? c = some p → InTree y c →
    Settles P (y.routed c) cl ⟨p, node P root p, pol⟩

theorem Inv.start (o : Cid) (s k root : M) (pol : Policy) (ranks : AMap Cid Path) (hn : AMap.NodupKeys ranks)
    (ho : ranks.get? o = none) : Inv P o pol root (Sys.start P o s k root (some (pol, ranks))) where
  ocid := rfl
  isOwner := rfl
  mode := rfl
  self := rfl
  noRank := ho
  nodup := hn
  group := ⟨_, rfl⟩
  leaves := by
    intro c hc g pk hg hm
    simp only [Sys.start, newOwner, Option.some.injEq] at hg
    subst hg
    simp only [List.mem_singleton, Option.some.injEq, Prod.mk.injEq] at hm
    exact absurd hm.1 hc
  client := by simp [Sys.start]
  kp := by simp [Sys.start]
  queue := by simp [Sys.start]
  unranked := by simp [Sys.start]
  ranked := by simp [Sys.start]

theorem lastAssign_map (as : List M) : lastAssign (as.map Routed.assign) = as.getLast? := by
  induction as with
  | nil => rfl
  | cons a as ih =>
    simp only [List.map_cons, lastAssign, ih]
    cases as with
    | nil => rfl
    | cons b as => simp [List.getLast?_cons]

/-- The owner changes, and assignments are sent. -/
theorem Inv.emit (hP : Lawful P) {o : Cid} {pol : Policy} {root : M} {y y' : Sys M} (h : Inv P o pol root y) (root' : M)
    (hc : y'.clients = y.clients) (hid : y'.owner.cid = y.owner.cid) (hio : y'.owner.isOwner = y.owner.isOwner)
    (hmode : y'.owner.mode = y.owner.mode) (hself : y'.owner.self = some (rootMember root' pol))
    (hnr : y'.owner.ranks.get? o = none) (hnd : AMap.NodupKeys y'.owner.ranks)
    (hg : ∃ g, y'.owner.group = some g ∧ ∀ c pk, c ≠ o → some (c, pk) ∈ g.leaves →
      ∃ cl, y.clients c = some cl ∧ pk = P.leafPub cl.leafSecret)
    (hk : ∀ c kp, y'.kps c = some kp → y.kps c = some kp)
    (as : List (Sealed M)) (extra : Cid → List (Routed M)) (hx : ∀ c, lastAssign (extra c) = none)
    (hr : ∀ c, y'.routed c = route P y.routed as c ++ extra c)
    (has : ∀ a ∈ as, ∃ cl p, y.clients a.to = some cl ∧ a.pk = P.leafPub cl.leafSecret ∧
      a.member = ⟨p, node P root' p, pol⟩ ∧ y'.owner.ranks.get? a.to = some p)
    (hrk : ∀ c, y'.owner.ranks.get? c = none → y.owner.ranks.get? c = none)
    (hcov : ∀ c p, y'.owner.ranks.get? c = some p → InTree y' c →
      (∃ a ∈ as, a.to = c) ∨ (root' = root ∧ y.owner.ranks.get? c = some p ∧ InTree y c)) : Inv P o pol root' y' := by
  have hmem : ∀ c ct, Routed.assign ct ∈ y'.routed c → Routed.assign ct ∈ y.routed c ∨ ∃ a ∈ as, a.to = c ∧ ct = a.ct P := by
    intro c ct hm
    rw [hr, route] at hm
    simp only [List.mem_append, List.mem_map, List.mem_filter, decide_eq_true_eq, Routed.assign.injEq] at hm
    rcases hm with (hm | ⟨a, ⟨ha, hac⟩, rfl⟩) | hm
    · exact .inl hm
    · exact .inr ⟨a, ha, hac, rfl⟩
    · exact absurd hm (lastAssign_none.mp (hx c) ct)
  constructor
  · rw [hid]; exact h.ocid
  · rw [hio]; exact h.isOwner
  · rw [hmode]; exact h.mode
  · exact hself
  · exact hnr
  · exact hnd
  · obtain ⟨g, hg, -⟩ := hg; exact ⟨g, hg⟩
  · intro c hco g pk hg' hm
    obtain ⟨g2, hg2, h2⟩ := hg
    rw [hg2, Option.some.injEq] at hg'
    subst hg'
    rw [hc]
    exact h2 c pk hco hm
  · rw [hc]; exact h.client
  · intro c kp hkp
    rw [hc]
    exact h.kp c kp (hk c kp hkp)
  · intro c ct hm
    rw [hc]
    rcases hmem c ct hm with hm | ⟨a, ha, rfl, rfl⟩
    · exact h.queue c ct hm
    · obtain ⟨cl, p, hcl, hpk, hme, -⟩ := has a ha
      exact ⟨cl, a.member, hcl, open_sealed hP a hpk, by rw [hme]⟩
  · intro c cl hcl hn
    rw [hc] at hcl
    obtain ⟨h1, h2, h3⟩ := h.unranked c cl hcl (hrk c hn)
    refine ⟨h1, h2, fun ct hm => ?_⟩
    rcases hmem c ct hm with hm | ⟨a, ha, rfl, rfl⟩
    · exact h3 ct hm
    · obtain ⟨_, p, -, -, -, hp⟩ := has a ha
      rw [hn] at hp; cases hp
  · intro c cl p hcl hp ht
    rw [hc] at hcl
    rw [hr]
    refine Settles.append ?_ (hx c)
    unfold route
    cases hl : ((as.filter (fun a => a.to = c)).map fun a => a.ct P).getLast? with
    | none =>
      rw [List.getLast?_eq_none_iff] at hl
      rcases hcov c p hp ht with ⟨a, ha, hac⟩ | ⟨e, hp2, ht2⟩
      · have : a.ct P ∈ (as.filter (fun a => a.to = c)).map fun a => a.ct P :=
          List.mem_map_of_mem (List.mem_filter.mpr ⟨ha, by simpa using hac⟩)
        rw [hl] at this; cases this
      · refine Settles.append ?_ ?_
        · rw [e]; exact h.ranked c cl p hcl hp2 ht2
        · rw [List.map_eq_nil_iff] at hl
          rw [hl]
          rfl
    | some ct =>
      have hin := List.mem_of_getLast? hl
      simp only [List.mem_map, List.mem_filter, decide_eq_true_eq] at hin
      obtain ⟨a, ⟨ha, rfl⟩, rfl⟩ := hin
      obtain ⟨cl2, p2, hcl2, hpk, hme, hp2⟩ := has a ha
      rw [hcl] at hcl2
      cases hcl2
      rw [hp] at hp2
      cases hp2
      refine Settles.last (ct := a.ct P) ?_ ?_
      · rw [← hl, ← lastAssign_map, List.map_map]
        rfl
      · rw [← hme]
        exact open_sealed hP a hpk

end Verif.Ranks

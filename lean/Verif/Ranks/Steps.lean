import Verif.Ranks.Lemmas
/-
Every action keeps the invariant.
-/
namespace Verif.Ranks
open Verif Verif.Hierarchy

variable {M : Type} [DecidableEq M] {P : Prims M} {o : Cid} {pol : Policy} {root : M} {y : Sys M}

theorem promote_eq (h : Inv P o pol root y) {g : Group M} (hg : y.owner.group = some g) (c : Cid) (path : Path) (r : Nat) :
    promote P y.owner c path r = some ({ y.owner with ranks := y.owner.ranks.insert c path },
      (leafOf g.leaves c).map fun pk => ⟨c, ⟨path, node P root path, pol⟩, pk, r⟩) := by
  unfold promote
  rw [if_neg (by rw [h.isOwner]; decide), h.self]
  simp only [derive_root_member, hg, Option.bind_some]
  cases leafOf g.leaves c <;> simp [h.self]

theorem demote_eq (h : Inv P o pol root y) {g : Group M} (hg : y.owner.group = some g) (c : Cid) (root' s k : M) (r : Cid → Nat) :
    demote P y.owner c root' s k r = some ({ y.owner with
        ranks := y.owner.ranks.insert c (demotedPath c), self := some (rootMember root' pol), group := some (g.commit P o s k) },
      (y.owner.ranks.insert c (demotedPath c)).filterMap
        (fun e => (leafOf g.leaves e.1).map fun pk => ⟨e.1, ⟨e.2, node P root' e.2, pol⟩, pk, r e.1⟩),
      g.commit P o s k) := by
  unfold demote
  rw [if_neg (by rw [h.isOwner]; decide), h.mode, hg, h.ocid]
  simp only [reseal_eq, h.mode, h.ocid]

theorem addMember_eq (h : Inv P o pol root y) {g : Group M} (hg : y.owner.group = some g) (kp : Cid × M) (s k : M) (r : Nat) :
    addMember P y.owner kp s k r =
      some ({ y.owner with group := some (({ g with leaves := addLeaf kp g.leaves } : Group M).commit P o s k) },
        ({ g with leaves := addLeaf kp g.leaves } : Group M).commit P o s k,
        (y.owner.ranks.get? kp.1).map fun p => (⟨p, node P root p, pol⟩, kp.2, r)) := by
  unfold addMember assignmentForJoiner
  rw [if_neg (by rw [h.isOwner]; decide), h.self, hg, h.ocid]
  cases y.owner.ranks.get? kp.1 with
  | none => simp [h.self, h.ocid]
  | some p => simp [derive_root_member, h.self, h.ocid]

theorem removeByCid_eq (h : Inv P o pol root y) {g : Group M} (hg : y.owner.group = some g) (c : Cid) (s k : M) :
    removeByCid P y.owner c s k = if (leafOf g.leaves c).isSome then
      some ({ y.owner with group := some (({ g with leaves := removeLeaf c g.leaves } : Group M).commit P o s k) },
        some (({ g with leaves := removeLeaf c g.leaves } : Group M).commit P o s k))
      else some (y.owner, none) := by
  unfold removeByCid
  rw [if_neg (by rw [h.isOwner]; decide), hg, h.ocid]
  cases hl : leafOf g.leaves c <;> simp [h.ocid, hl]

/-- What the owner sends with an action goes to members, sealed to their leaves, for the rank they have, below the root. -/
structure Emits (P : Prims M) (pol : Policy) (root' : M) (y y' : Sys M) (a : Sealed M) : Prop where
  ex : ∃ cl p, y.clients a.to = some cl ∧ a.pk = P.leafPub cl.leafSecret ∧
      a.member = ⟨p, node P root' p, pol⟩ ∧ y'.owner.ranks.get? a.to = some p

theorem nodup_insert {m : AMap Cid Path} (h : AMap.NodupKeys m) (c : Cid) (p : Path) : AMap.NodupKeys (m.insert c p) :=
  AMap.nodupKeys_insert h c p

theorem get_of_mem {m : AMap Cid Path} (h : AMap.NodupKeys m) {e : Cid × Path} (he : e ∈ m) : m.get? e.1 = some e.2 := by
  induction m with
  | nil => cases he
  | cons x m ih =>
    obtain ⟨k, v⟩ := x
    rw [AMap.get?_cons]
    have hn : k ∉ AMap.keys m ∧ (AMap.keys m).Nodup := List.nodup_cons.mp h
    rcases List.mem_cons.mp he with rfl | he
    · exact if_pos rfl
    · have hne : ¬ k = e.1 := by
        intro e'
        rw [e'] at hn
        exact hn.1 (List.mem_map_of_mem he)
      rw [if_neg hne, ih hn.2 he]

theorem mem_of_get {m : AMap Cid Path} {c : Cid} {p : Path} (h : m.get? c = some p) : (c, p) ∈ m := by
  induction m with
  | nil => cases h
  | cons x m ih =>
    obtain ⟨k, v⟩ := x
    rw [AMap.get?_cons] at h
    by_cases hk : k = c
    · rw [if_pos hk] at h
      cases h
      subst hk
      exact List.mem_cons_self
    · rw [if_neg hk] at h
      exact List.mem_cons_of_mem _ (ih h)

/-- The leaf of a ranked member. -/
theorem Inv.leaf (h : Inv P o pol root y) {g : Group M} (hg : y.owner.group = some g) {c : Cid} {pk : M} (hc : c ≠ o)
    (hl : leafOf g.leaves c = some pk) : ∃ cl, y.clients c = some cl ∧ pk = P.leafPub cl.leafSecret :=
  h.leaves c hc g pk hg (leafOf_mem hl)

theorem step_promote (hP : Lawful P) (h : Inv P o pol root y) {c : Cid} {path : Path} {r : Nat} (hc : c ≠ o) :
    Inv P o pol root (act P y (.promote c path r)).1 ∧
    (∀ a ∈ (act P y (.promote c path r)).2.assigns, Emits P pol root y (act P y (.promote c path r)).1 a) ∧
    (act P y (.promote c path r)).1.owner.ranks = y.owner.ranks.insert c path := by
  obtain ⟨g, hg⟩ := h.group
  have hem : ∀ a ∈ ((leafOf g.leaves c).map fun pk => (⟨c, ⟨path, node P root path, pol⟩, pk, r⟩ : Sealed M)).toList,
      ∃ cl p, y.clients a.to = some cl ∧ a.pk = P.leafPub cl.leafSecret ∧ a.member = ⟨p, node P root p, pol⟩ ∧
        (y.owner.ranks.insert c path).get? a.to = some p := by
    intro a ha
    rw [Option.mem_toList, Option.map_eq_some_iff] at ha
    obtain ⟨pk, hpk, rfl⟩ := ha
    obtain ⟨cl, hcl, e⟩ := h.leaf hg hc hpk
    exact ⟨cl, path, hcl, e, rfl, AMap.get?_insert_self _ _ _⟩
  simp only [act, promote_eq h hg]
  refine ⟨?_, fun a ha => ⟨hem a ha⟩, trivial⟩
  refine h.emit hP root rfl rfl rfl rfl h.self ?_ (nodup_insert h.nodup _ _) ⟨g, hg, fun c pk hco hm => h.leaves c hco g pk hg hm⟩
    (fun _ _ hk => hk) _ (fun _ => []) (fun _ => rfl) (fun c => (List.append_nil _).symm) hem ?_ ?_
  · change (y.owner.ranks.insert c path).get? o = none
    rw [AMap.get?_insert_ne _ _ (Ne.symm hc)]
    exact h.noRank
  · intro x hx
    change (y.owner.ranks.insert c path).get? x = none at hx
    rw [AMap.get?_insert] at hx
    by_cases e : x = c
    · rw [if_pos e] at hx; cases hx
    · rw [if_neg e] at hx; exact hx
  · intro x p hx ht
    change (y.owner.ranks.insert c path).get? x = some p at hx
    obtain ⟨g', pk, hg', hm⟩ := ht
    change y.owner.group = some g' at hg'
    by_cases e : x = c
    · subst e
      rw [hg, Option.some.injEq] at hg'
      subst hg'
      obtain ⟨pk', hpk'⟩ := leafOf_of_mem hm
      exact .inl ⟨_, by rw [hpk']; exact Option.mem_toList.mpr rfl, rfl⟩
    · rw [AMap.get?_insert_ne _ _ e] at hx
      exact .inr ⟨rfl, hx, g', pk, hg', hm⟩

theorem step_demote (hP : Lawful P) (h : Inv P o pol root y) {c : Cid} {root' s k : M} {r : Cid → Nat} (hc : c ≠ o) :
    Inv P o pol root' (act P y (.demote c root' s k r)).1 ∧
    (∀ a ∈ (act P y (.demote c root' s k r)).2.assigns, Emits P pol root' y (act P y (.demote c root' s k r)).1 a) ∧
    (act P y (.demote c root' s k r)).1.owner.ranks = y.owner.ranks.insert c (demotedPath c) := by
  obtain ⟨g, hg⟩ := h.group
  have hno : (y.owner.ranks.insert c (demotedPath c)).get? o = none := by
    rw [AMap.get?_insert_ne _ _ (Ne.symm hc)]
    exact h.noRank
  have hnd := nodup_insert h.nodup c (demotedPath c)
  have hem : ∀ a ∈ (y.owner.ranks.insert c (demotedPath c)).filterMap
        (fun e => (leafOf g.leaves e.1).map fun pk => (⟨e.1, ⟨e.2, node P root' e.2, pol⟩, pk, r e.1⟩ : Sealed M)),
      ∃ cl p, y.clients a.to = some cl ∧ a.pk = P.leafPub cl.leafSecret ∧ a.member = ⟨p, node P root' p, pol⟩ ∧
        (y.owner.ranks.insert c (demotedPath c)).get? a.to = some p := by
    intro a ha
    rw [List.mem_filterMap] at ha
    obtain ⟨e, he, ha⟩ := ha
    rw [Option.map_eq_some_iff] at ha
    obtain ⟨pk, hpk, rfl⟩ := ha
    have hge := get_of_mem hnd he
    have heo : e.1 ≠ o := by
      intro e'
      rw [e', hno] at hge
      cases hge
    obtain ⟨cl, hcl, e'⟩ := h.leaf hg heo hpk
    exact ⟨cl, e.2, hcl, e', rfl, hge⟩
  simp only [act, demote_eq h hg]
  refine ⟨?_, fun a ha => ⟨hem a ha⟩, trivial⟩
  refine h.emit hP root' rfl rfl rfl rfl rfl hno hnd ⟨_, rfl, ?_⟩
    (fun _ _ hk => hk) _ (fun _ => []) (fun _ => rfl) (fun c => (List.append_nil _).symm) hem ?_ ?_
  · intro x pk hx hm
    rcases mem_commit hm with e | hm
    · exact absurd e hx
    · exact h.leaves x hx g pk hg hm
  · intro x hx
    change (y.owner.ranks.insert c (demotedPath c)).get? x = none at hx
    rw [AMap.get?_insert] at hx
    by_cases e : x = c
    · rw [if_pos e] at hx; cases hx
    · rw [if_neg e] at hx; exact hx
  · intro x p hx ht
    change (y.owner.ranks.insert c (demotedPath c)).get? x = some p at hx
    obtain ⟨g', pk, hg', hm⟩ := ht
    simp only [Option.some.injEq] at hg'
    subst hg'
    have hxo : x ≠ o := by
      rintro rfl
      rw [hno] at hx; cases hx
    have hm := (mem_commit hm).resolve_left hxo
    obtain ⟨pk', hpk'⟩ := leafOf_of_mem hm
    exact .inl ⟨_, List.mem_filterMap.mpr ⟨(x, p), mem_of_get hx, by rw [hpk']; rfl⟩, rfl⟩

theorem step_add (hP : Lawful P) (h : Inv P o pol root y) {c : Cid} {s k : M} {r : Nat} :
    Inv P o pol root (act P y (.add c s k r)).1 ∧
    (∀ a ∈ (act P y (.add c s k r)).2.assigns, Emits P pol root y (act P y (.add c s k r)).1 a) ∧
    (act P y (.add c s k r)).1.owner.ranks = y.owner.ranks := by
  obtain ⟨g, hg⟩ := h.group
  simp only [act]
  cases hk : y.kps c with
  | none =>
    refine ⟨h, ?_, rfl⟩
    intro a ha
    cases ha
  | some kp =>
    obtain ⟨cl, hcl, rfl⟩ := h.kp c kp hk
    have hc := (h.client c cl hcl).1
    simp only [addMember_eq h hg]
    have hem : ∀ a ∈ (((y.owner.ranks.get? c).map (fun p => ((⟨p, node P root p, pol⟩ : Member M), P.leafPub cl.leafSecret, r))).map
        fun e => (⟨c, e.1, e.2.1, e.2.2⟩ : Sealed M)).toList,
      ∃ cl p, y.clients a.to = some cl ∧ a.pk = P.leafPub cl.leafSecret ∧ a.member = ⟨p, node P root p, pol⟩ ∧
        y.owner.ranks.get? a.to = some p := by
      intro a ha
      cases hr : y.owner.ranks.get? c with
      | none => rw [hr] at ha; cases ha
      | some p =>
        rw [hr] at ha
        simp only [Option.map_some, Option.mem_toList, Option.some.injEq] at ha
        subst ha
        exact ⟨cl, p, hcl, rfl, rfl, hr⟩
    refine ⟨?_, fun a ha => ⟨hem a ha⟩, trivial⟩
    refine h.emit hP root rfl rfl rfl rfl h.self h.noRank h.nodup ⟨_, rfl, ?_⟩ ?_ _
      (put (fun _ => []) c [.welcome (({ g with leaves := addLeaf (c, P.leafPub cl.leafSecret) g.leaves } : Group M).commit P o s k)]) ?_ ?_ hem
      (fun _ hx => hx) ?_
    · intro x pk hx hm
      rcases mem_commit hm with e | hm
      · exact absurd e hx
      · rcases mem_addLeaf hm with e | hm
        · cases e
          exact ⟨cl, hcl, rfl⟩
        · exact h.leaves x hx g pk hg hm
    · intro x kp hx
      simp only [put] at hx
      by_cases e : x = c
      · rw [if_pos e] at hx; cases hx
      · rw [if_neg e] at hx; exact hx
    · intro x
      simp only [put]
      split <;> rfl
    · intro x
      simp only [put]
      by_cases e : x = c
      · subst e
        rw [if_pos rfl, if_pos rfl]
      · rw [if_neg e, if_neg e, List.append_nil]
    · intro x p hx ht
      change y.owner.ranks.get? x = some p at hx
      obtain ⟨g', pk, hg', hm⟩ := ht
      simp only [Option.some.injEq] at hg'
      subst hg'
      have hxo : x ≠ o := by
        rintro rfl
        rw [h.noRank] at hx; cases hx
      have hm := (mem_commit hm).resolve_left hxo
      rcases mem_addLeaf hm with e | hm
      · cases e
        left
        rw [hx]
        exact ⟨_, List.mem_singleton.mpr rfl, rfl⟩
      · exact .inr ⟨rfl, hx, g, pk, hg, hm⟩

theorem step_kick (hP : Lawful P) (h : Inv P o pol root y) {c : Cid} {s k : M} :
    Inv P o pol root (act P y (.kick c s k)).1 ∧ (act P y (.kick c s k)).2.assigns = [] ∧
    (act P y (.kick c s k)).1.owner.ranks = y.owner.ranks := by
  obtain ⟨g, hg⟩ := h.group
  simp only [act, removeByCid_eq h hg]
  by_cases hl : (leafOf g.leaves c).isSome
  · rw [if_pos hl]
    refine ⟨?_, rfl, rfl⟩
    refine h.emit hP root rfl rfl rfl rfl h.self h.noRank h.nodup ⟨_, rfl, ?_⟩ (fun _ _ hk => hk) [] (fun _ => [])
      (fun _ => rfl) (fun x => by simp [route]) (fun a ha => by cases ha) (fun _ hx => hx) ?_
    · intro x pk hx hm
      rcases mem_commit hm with e | hm
      · exact absurd e hx
      · exact h.leaves x hx g pk hg (mem_removeLeaf hm)
    · intro x p hx ht
      change y.owner.ranks.get? x = some p at hx
      obtain ⟨g', pk, hg', hm⟩ := ht
      simp only [Option.some.injEq] at hg'
      subst hg'
      have hxo : x ≠ o := by
        rintro rfl
        rw [h.noRank] at hx; cases hx
      exact .inr ⟨rfl, hx, g, pk, hg, mem_removeLeaf ((mem_commit hm).resolve_left hxo)⟩
  · rw [if_neg hl]
    refine ⟨?_, rfl, rfl⟩
    exact ⟨h.ocid, h.isOwner, h.mode, h.self, h.noRank, h.nodup, h.group, h.leaves, h.client, h.kp, h.queue, h.unranked, h.ranked⟩

theorem step_accept (h : Inv P o pol root y) {c : Cid} {s : M} (hc : c ≠ o) :
    Inv P o pol root (act P y (.accept c s)).1 := by
  simp only [act]
  cases hcl : y.clients c with
  | some cl => exact ⟨h.ocid, h.isOwner, h.mode, h.self, h.noRank, h.nodup, h.group, h.leaves, h.client, h.kp, h.queue, h.unranked, h.ranked⟩
  | none =>
    have hne : ∀ x cl, y.clients x = some cl → x ≠ c := by
      rintro x cl hx rfl
      rw [hcl] at hx; cases hx
    refine ⟨h.ocid, h.isOwner, h.mode, h.self, h.noRank, h.nodup, h.group, ?_, ?_, ?_, ?_, ?_, ?_⟩
    · intro x hx g pk hg hm
      obtain ⟨cl, h1, h2⟩ := h.leaves x hx g pk hg hm
      exact ⟨cl, by simp only [put]; rw [if_neg (hne x cl h1)]; exact h1, h2⟩
    · intro x cl hx
      simp only [put] at hx
      by_cases e : x = c
      · rw [if_pos e, Option.some.injEq] at hx
        subst hx
        exact ⟨e ▸ hc, rfl⟩
      · rw [if_neg e] at hx
        exact h.client x cl hx
    · intro x kp hx
      simp only [put] at hx ⊢
      by_cases e : x = c
      · subst e
        rw [if_pos rfl, Option.some.injEq] at hx
        subst hx
        exact ⟨_, if_pos rfl, rfl⟩
      · rw [if_neg e] at hx
        obtain ⟨cl, h1, h2⟩ := h.kp x kp hx
        exact ⟨cl, by rw [if_neg e]; exact h1, h2⟩
    · intro x ct hx
      obtain ⟨cl, m, h1, h2, h3⟩ := h.queue x ct hx
      exact ⟨cl, m, by simp only [put]; rw [if_neg (hne x cl h1)]; exact h1, h2, h3⟩
    · intro x cl hx hn
      simp only [put] at hx
      by_cases e : x = c
      · rw [if_pos e, Option.some.injEq] at hx
        subst hx
        refine ⟨rfl, rfl, fun ct hm => ?_⟩
        obtain ⟨cl, m, h1, -⟩ := h.queue x ct hm
        rw [e, hcl] at h1; cases h1
      · rw [if_neg e] at hx
        exact h.unranked x cl hx hn
    · intro x cl p hx hp ht
      simp only [put] at hx
      by_cases e : x = c
      · exfalso
        obtain ⟨g, pk, hg, hm⟩ := ht
        obtain ⟨cl', h1, -⟩ := h.leaves x (e ▸ hc) g pk hg hm
        rw [e, hcl] at h1; cases h1
      · rw [if_neg e] at hx
        exact h.ranked x cl p hx hp ht

/-- A client changes but for its leaf secret. -/
theorem Inv.client_step (h : Inv P o pol root y) {c : Cid} {cl cl' : Client M} {q : List (Routed M)} {cm : Cid → List (Group M)}
    (hcl : y.clients c = some cl) (hs : cl'.leafSecret = cl.leafSecret) (hio : cl'.isOwner = cl.isOwner)
    (hq : ∀ ct, Routed.assign ct ∈ q → Routed.assign ct ∈ y.routed c)
    (hun : y.owner.ranks.get? c = none → cl'.mode = none ∧ cl'.self = none)
    (hr : ∀ x, Settles P (y.routed c) cl x → x.policy = pol → Settles P q cl' x) :
    Inv P o pol root { y with clients := put y.clients c (some cl'), routed := put y.routed c q, commits := cm } := by
  have hcc : ∀ x z, y.clients x = some z → ∃ z', put y.clients c (some cl') x = some z' ∧ z'.leafSecret = z.leafSecret ∧ z'.isOwner = z.isOwner := by
    intro x z hx
    unfold put
    by_cases e : x = c
    · subst e
      rw [hcl] at hx
      cases hx
      exact ⟨cl', if_pos rfl, hs, hio⟩
    · exact ⟨z, by rw [if_neg e]; exact hx, rfl, rfl⟩
  have hrt : ∀ x ct, Routed.assign ct ∈ put y.routed c q x → Routed.assign ct ∈ y.routed x := by
    intro x ct hm
    unfold put at hm
    by_cases e : x = c
    · rw [if_pos e] at hm; rw [e]; exact hq ct hm
    · rw [if_neg e] at hm; exact hm
  refine ⟨h.ocid, h.isOwner, h.mode, h.self, h.noRank, h.nodup, h.group, ?_, ?_, ?_, ?_, ?_, ?_⟩
  · intro x hx g pk hg hm
    obtain ⟨z, h1, h2⟩ := h.leaves x hx g pk hg hm
    obtain ⟨z', h3, h4, -⟩ := hcc x z h1
    exact ⟨z', h3, by rw [h4]; exact h2⟩
  · intro x z hx
    simp only [put] at hx
    by_cases e : x = c
    · rw [if_pos e, Option.some.injEq] at hx
      subst hx
      subst e
      exact ⟨(h.client x cl hcl).1, by rw [hio]; exact (h.client x cl hcl).2⟩
    · rw [if_neg e] at hx
      exact h.client x z hx
  · intro x kp hx
    obtain ⟨z, h1, h2⟩ := h.kp x kp hx
    obtain ⟨z', h3, h4, -⟩ := hcc x z h1
    exact ⟨z', h3, by rw [h4]; exact h2⟩
  · intro x ct hx
    obtain ⟨z, m, h1, h2, h3⟩ := h.queue x ct (hrt x ct hx)
    obtain ⟨z', h4, h5, -⟩ := hcc x z h1
    exact ⟨z', m, h4, by rw [h5]; exact h2, h3⟩
  · intro x z hx hn
    simp only [put] at hx
    by_cases e : x = c
    · rw [if_pos e, Option.some.injEq] at hx
      subst hx
      subst e
      obtain ⟨h1, h2⟩ := hun hn
      exact ⟨h1, h2, fun ct hm => (h.unranked x cl hcl hn).2.2 ct (hrt x ct hm)⟩
    · rw [if_neg e] at hx
      obtain ⟨h1, h2, h3⟩ := h.unranked x z hx hn
      exact ⟨h1, h2, fun ct hm => h3 ct (hrt x ct hm)⟩
  · intro x z p hx hp ht
    simp only [put] at hx ⊢
    by_cases e : x = c
    · rw [if_pos e, Option.some.injEq] at hx
      subst hx
      subst e
      rw [if_pos rfl]
      exact hr _ (h.ranked x cl p hcl hp ht) rfl
    · rw [if_neg e] at hx ⊢
      exact h.ranked x z p hx hp ht

theorem put_self {A : Type} (f : Cid → A) (c : Cid) : put f c (f c) = f := by
  funext x
  unfold put
  by_cases e : x = c
  · rw [if_pos e, e]
  · rw [if_neg e]

theorem step_routed (h : Inv P o pol root y) {c : Cid} : Inv P o pol root (act P y (.getRouted c)).1 := by
  simp only [act]
  cases hq : y.routed c with
  | nil => exact h
  | cons p rest =>
    simp only
    by_cases hc : c = y.owner.cid
    · rw [if_pos hc]
      have hco : c = o := hc.trans h.ocid
      cases p with
      | assign ct =>
        obtain ⟨cl, m, h1, -⟩ := h.queue c ct (by rw [hq]; exact List.mem_cons_self)
        exact absurd hco (h.client c cl h1).1
      | welcome g =>
        have hrt : ∀ x ct, Routed.assign ct ∈ put y.routed c rest x → Routed.assign ct ∈ y.routed x := by
          intro x ct hm
          unfold put at hm
          by_cases e : x = c
          · rw [if_pos e] at hm; rw [e, hq]; exact List.mem_cons_of_mem _ hm
          · rw [if_neg e] at hm; exact hm
        refine ⟨h.ocid, h.isOwner, h.mode, h.self, h.noRank, h.nodup, h.group, h.leaves, h.client, h.kp, ?_, ?_, ?_⟩
        · intro x ct hx; exact h.queue x ct (hrt x ct hx)
        · intro x cl hx hn
          obtain ⟨h1, h2, h3⟩ := h.unranked x cl hx hn
          exact ⟨h1, h2, fun ct hm => h3 ct (hrt x ct hm)⟩
        · intro x cl p hx hp ht
          have e : x ≠ c := fun e => (h.client x cl hx).1 (e.trans hco)
          simp only [put]
          rw [if_neg e]
          exact h.ranked x cl p hx hp ht
    · rw [if_neg hc]
      cases hcl : y.clients c with
      | none =>
        have hrt : ∀ x ct, Routed.assign ct ∈ put y.routed c rest x → Routed.assign ct ∈ y.routed x := by
          intro x ct hm
          unfold put at hm
          by_cases e : x = c
          · rw [if_pos e] at hm; rw [e, hq]; exact List.mem_cons_of_mem _ hm
          · rw [if_neg e] at hm; exact hm
        refine ⟨h.ocid, h.isOwner, h.mode, h.self, h.noRank, h.nodup, h.group, h.leaves, h.client, h.kp, ?_, ?_, ?_⟩
        · intro x ct hx; exact h.queue x ct (hrt x ct hx)
        · intro x cl hx hn
          obtain ⟨h1, h2, h3⟩ := h.unranked x cl hx hn
          exact ⟨h1, h2, fun ct hm => h3 ct (hrt x ct hm)⟩
        · intro x cl p hx hp ht
          have e : x ≠ c := by
            rintro rfl
            rw [hcl] at hx; cases hx
          simp only [put]
          rw [if_neg e]
          exact h.ranked x cl p hx hp ht
      | some cl =>
        simp only
        have hsub : ∀ ct, Routed.assign ct ∈ rest → Routed.assign ct ∈ y.routed c := by
          intro ct hm; rw [hq]; exact List.mem_cons_of_mem _ hm
        have hownf := (h.client c cl hcl).2
        cases p with
        | assign ct =>
          obtain ⟨cl2, m, h1, h2, h3⟩ := h.queue c ct (by rw [hq]; exact List.mem_cons_self)
          rw [hcl] at h1
          cases h1
          have happ : applyAssignment P cl ct = some { cl with mode := some m.policy, self := some m } := by
            unfold applyAssignment
            rw [h2]
            simp only [hownf, if_true]
          simp only [happ]
          refine h.client_step hcl rfl rfl hsub ?_ ?_
          · intro hn
            exact absurd (by rw [hq]; exact List.mem_cons_self) ((h.unranked c cl hcl hn).2.2 ct)
          · intro x hx hxp
            unfold Settles at hx ⊢
            rw [hq] at hx
            simp only [lastAssign] at hx
            cases hl : lastAssign rest with
            | none =>
              rw [hl] at hx
              simp only [Option.getD_none] at hx
              rw [h2] at hx
              cases hx
              exact ⟨rfl, rfl⟩
            | some ct' =>
              rw [hl] at hx
              exact hx
        | welcome g =>
          have hset : ∀ (cl' : Client M), cl'.leafSecret = cl.leafSecret → cl'.mode = cl.mode → cl'.self = cl.self →
              ∀ x, Settles P (y.routed c) cl x → x.policy = pol → Settles P rest cl' x := by
            intro cl' e1 e2 e3 x hx _
            unfold Settles at hx ⊢
            rw [hq] at hx
            simp only [lastAssign] at hx
            cases hl : lastAssign rest with
            | none => rw [hl] at hx; simp only [e2, e3]; exact hx
            | some ct' => rw [hl] at hx; simp only [e1]; exact hx
          have hjoin : join P cl g = some { cl with group := some g } ∨ join P cl g = none := by
            unfold join; split
            · exact .inl rfl
            · exact .inr rfl
          rcases hjoin with e | e
          · simp only [e]
            refine h.client_step hcl rfl rfl hsub ?_ (hset _ rfl rfl rfl)
            intro hn
            exact ⟨(h.unranked c cl hcl hn).1, (h.unranked c cl hcl hn).2.1⟩
          · simp only [e]
            have := h.client_step (cm := y.commits) hcl rfl rfl hsub
              (fun hn => ⟨(h.unranked c cl hcl hn).1, (h.unranked c cl hcl hn).2.1⟩) (hset cl rfl rfl rfl)
            rw [← hcl, put_self] at this
            exact this

theorem step_commit (h : Inv P o pol root y) {c : Cid} : Inv P o pol root (act P y (.getCommit c)).1 := by
  simp only [act]
  cases hq : y.commits c with
  | nil => exact h
  | cons g rest =>
    simp only
    have hbase : Inv P o pol root { y with commits := put y.commits c rest } :=
      ⟨h.ocid, h.isOwner, h.mode, h.self, h.noRank, h.nodup, h.group, h.leaves, h.client, h.kp, h.queue, h.unranked, h.ranked⟩
    cases hcl : y.clients c with
    | none => exact hbase
    | some cl =>
      simp only
      cases hp : processCommit P cl g with
      | none => exact hbase
      | some cl' =>
        simp only
        have : cl'.leafSecret = cl.leafSecret ∧ cl'.isOwner = cl.isOwner ∧ cl'.mode = cl.mode ∧ cl'.self = cl.self := by
          unfold processCommit at hp
          split at hp
          · cases hp; exact ⟨rfl, rfl, rfl, rfl⟩
          · split at hp
            · cases hp; exact ⟨rfl, rfl, rfl, rfl⟩
            · split at hp
              · cases hp; exact ⟨rfl, rfl, rfl, rfl⟩
              · cases hp
        obtain ⟨e1, e2, e3, e4⟩ := this
        have := h.client_step (q := y.routed c) (cm := put y.commits c rest) (cl' := cl') hcl e1 e2 (fun _ hm => hm)
          (fun hn => by rw [e3, e4]; exact ⟨(h.unranked c cl hcl hn).1, (h.unranked c cl hcl hn).2.1⟩)
          (fun x hx _ => by
            unfold Settles at hx ⊢
            cases hl : lastAssign (y.routed c) with
            | none => rw [hl] at hx; simp only [e3, e4]; exact hx
            | some ct' => rw [hl] at hx; simp only [e1]; exact hx)
        rw [put_self] at this
        exact this

/-- One action: the invariant with the root that is now in force, the ranks, and what is sent. -/
theorem Inv.step (hP : Lawful P) (h : Inv P o pol root y) {a : Act M} (ha : Proper o a) :
    Inv P o pol (rootOf root [a]) (act P y a).1 ∧
    (∀ e ∈ (act P y a).2.assigns, Emits P pol (rootOf root [a]) y (act P y a).1 e) ∧
    ∀ c, (act P y a).1.owner.ranks.get? c = rankOf c (y.owner.ranks.get? c) [a] := by
  cases a with
  | accept c s =>
    refine ⟨step_accept h ha, ?_, ?_⟩
    · simp only [act]; split <;> intro e he <;> cases he
    · simp only [act]; split <;> intro c <;> rfl
  | add c s k r =>
    obtain ⟨h1, h2, h3⟩ := step_add hP h (c := c) (s := s) (k := k) (r := r)
    exact ⟨h1, h2, fun c => by rw [h3]; rfl⟩
  | promote c path r =>
    obtain ⟨h1, h2, h3⟩ := step_promote hP h (c := c) (path := path) (r := r) ha
    refine ⟨h1, h2, fun x => ?_⟩
    rw [h3, AMap.get?_insert]
    simp only [rankOf, eq_comm (a := c)]
  | demote c root' s k r =>
    obtain ⟨h1, h2, h3⟩ := step_demote hP h (c := c) (root' := root') (s := s) (k := k) (r := r) ha
    refine ⟨h1, h2, fun x => ?_⟩
    rw [h3, AMap.get?_insert]
    simp only [rankOf, eq_comm (a := c)]
  | kick c s k =>
    obtain ⟨h1, h2, h3⟩ := step_kick hP h (c := c) (s := s) (k := k)
    exact ⟨h1, (fun e he => by rw [h2] at he; cases he), (fun c => by rw [h3]; rfl)⟩
  | leave c =>
    exact ⟨⟨h.ocid, h.isOwner, h.mode, h.self, h.noRank, h.nodup, h.group, h.leaves, h.client, h.kp, h.queue, h.unranked, h.ranked⟩,
      (fun e he => by cases he), (fun _ => rfl)⟩
  | getRouted c =>
    refine ⟨step_routed h, ?_, ?_⟩
    · simp only [act]; intro e he; repeat' split at he
      all_goals cases he
    · have hno : (act P y (.getRouted c)).1.owner.ranks = y.owner.ranks := by
        simp only [act]
        repeat' split
        all_goals first | rfl | (rename_i hap; unfold applyAssignment at hap; split at hap <;> cases hap; rfl)
      intro x; rw [hno]; rfl
  | getCommit c =>
    refine ⟨step_commit h, ?_, ?_⟩
    · simp only [act]; intro e he; repeat' split at he
      all_goals cases he
    · have hno : (act P y (.getCommit c)).1.owner.ranks = y.owner.ranks := by
        simp only [act]
        repeat' split
        all_goals rfl
      intro x; rw [hno]; rfl
  | send c ck m r => exact ⟨h, (fun e he => by cases he), (fun _ => rfl)⟩
  | ownerSend ck m r => exact ⟨h, (fun e he => by cases he), (fun _ => rfl)⟩

theorem rootOf_cons (root : M) (a : Act M) (as : List (Act M)) : rootOf root (a :: as) = rootOf (rootOf root [a]) as := by
  cases a <;> rfl

theorem rankOf_cons (c : Cid) (rk : Option Path) (a : Act M) (as : List (Act M)) : rankOf c rk (a :: as) = rankOf c (rankOf c rk [a]) as := by
  cases a <;> rfl

theorem Inv.run (hP : Lawful P) (as : List (Act M)) (h : Inv P o pol root y) (ha : ∀ a ∈ as, Proper o a) :
    Inv P o pol (rootOf root as) (run P y as) ∧ ∀ c, (Ranks.run P y as).owner.ranks.get? c = rankOf c (y.owner.ranks.get? c) as := by
  induction as generalizing root y with
  | nil => exact ⟨h, fun _ => rfl⟩
  | cons a as ih =>
    obtain ⟨h1, -, h3⟩ := h.step hP (ha a List.mem_cons_self)
    obtain ⟨i1, i2⟩ := ih h1 (fun b hb => ha b (List.mem_cons_of_mem _ hb))
    rw [rootOf_cons]
    refine ⟨i1, fun c => ?_⟩
    rw [rankOf_cons, ← h3 c]
    exact i2 c

end Verif.Ranks

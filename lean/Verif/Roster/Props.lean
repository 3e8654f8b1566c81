import Verif.Roster.Lemmas

/-! Properties C31-C33 and C59: message groups on the server. -/
namespace Verif.Roster
open Verif

/-- **C31 is false.** With honest headers: client 2 asks to join the private group of client 1 and then accepts itself.
The owner did nothing but create the group. -/
theorem C31_counterexample_self_accept :
    let ops : List Op := [.connect 1, .connect 2, .signal 1 1 (.create 7 [] false),
      .signal 2 2 (.requestJoin (1, 7)), .signal 2 2 (.accept 2 (1, 7))]
    (∀ op ∈ ops, HonestHeader op) ∧ (after ops).groups.get? (1, 7) = some { members := [2, 1], pending := [], isPublic := false } ∧
    ∀ op ∈ ops, ¬ Consents (1, 7) 2 op := by
  refine ⟨by decide, by decide, ?_⟩
  intro op hop
  simp only [List.mem_cons, List.not_mem_nil, or_false] at hop
  rcases hop with rfl | rfl | rfl | rfl | rfl <;> simp [Consents, Invites]

/-- **C31 (partial).** If memberships are accepted only by the owner or by peers the owner invited, then every member of
a private group other than the owner was invited or accepted by the owner's own session, during the life of that very
group. Missing: the server does not check who accepts. -/
theorem C31_owner_consent_partial (ops : List Op) (hacc : ProperAccepts ops) (key : Key) (g : Group)
    (hg : (after ops).groups.get? key = some g) (hpriv : g.isPublic = false) (p : Nat) (hp : p ∈ g.members)
    (hne : p ≠ key.1) : Since ops key (Consents key p) := by
  induction ops using List.reverseRecOn generalizing g with
  | nil => simp [after, init] at hg
  | append_singleton ops op ih =>
    have ih := ih hacc.init
    have hex : (after (ops ++ [op])).groups.contains key = true := (contains_iff _ _).2 ⟨g, hg⟩
    rw [after_snoc] at hg
    rcases step_group (after ops) op key with h | ⟨c, h, mgid, peers, pub, rfl, hc, hk, -, h⟩ | ⟨g0, hg0, h⟩
    · rw [h] at hg; exact (ih g hg hpriv hp).keep op hex
    · rw [h] at hg
      cases hg
      subst hk
      simp only [List.mem_singleton] at hp
      exact absurd hp hne
    · rcases h with ⟨c, h, rfl, hc, h⟩ | ⟨c, h, rfl, hc, -, h⟩ | ⟨c, h, t, rfl, hc, h'⟩ | ⟨c, h, t, rfl, hc, h⟩ |
        ⟨c, h, rfl, hc, h⟩ | ⟨c, h, l, rfl, hc, -, h⟩ | ⟨c, h, l, rfl, hc, -, h⟩ | ⟨rfl, h⟩
      · rw [h] at hg
        obtain rfl := Option.some.inj hg
        have hpub : g0.isPublic = false := by
          unfold joinGroup at hpriv; simp only at hpriv; split at hpriv <;> exact hpriv
        have : (joinGroup ‹Nat› g0).members = g0.members := by unfold joinGroup; simp [hpub]
        rw [this] at hp
        exact (ih g0 hg0 hpub hp).keep _ hex
      · rw [h] at hg; cases hg
      · rw [h'] at hg
        obtain rfl := Option.some.inj hg
        unfold upgrade at hpriv hp
        split at hp
        · rename_i hpend
          rw [if_pos hpend] at hpriv
          rcases (mem_addTo _ _ _).1 hp with rfl | hp
          · rcases hacc ops c h p key [] rfl with rfl | hinv
            · exact Since.now (Or.inr ⟨h, rfl⟩) hex
            · exact (hinv.mono (fun _ => Or.inl)).keep _ hex
          · exact (ih g0 hg0 hpriv hp).keep _ hex
        · rename_i hpend
          rw [if_neg hpend] at hpriv
          exact (ih g0 hg0 hpriv hp).keep _ hex
      · rw [h] at hg; obtain rfl := Option.some.inj hg
        exact (ih g0 hg0 hpriv hp).keep _ hex
      · rw [h] at hg; obtain rfl := Option.some.inj hg
        exact (ih g0 hg0 hpriv (List.mem_filter.1 hp).1).keep _ hex
      · rw [h] at hg; obtain rfl := Option.some.inj hg
        exact (ih g0 hg0 hpriv hp).keep _ hex
      · rw [h] at hg; obtain rfl := Option.some.inj hg
        exact (ih g0 hg0 hpriv (List.mem_filter.1 hp).1).keep _ hex
      · rw [h] at hg; cases hg

/-- The hypothesis is met by a group with an invited peer who accepts. -/
example : let ops : List Op := [.connect 1, .connect 2, .signal 1 1 (.create 7 [2] false), .signal 2 2 (.accept 2 (1, 7))]
    ProperAccepts ops ∧ (after ops).groups.get? (1, 7) = some { members := [2, 1], pending := [], isPublic := false } := by
  refine ⟨?_, by decide⟩
  intro pre c h target key post e
  rcases pre with _ | ⟨p1, _ | ⟨p2, _ | ⟨p3, _ | ⟨p4, rest⟩⟩⟩⟩ <;> simp at e
  obtain ⟨rfl, rfl, rfl, ⟨rfl, rfl, rfl, rfl⟩, rfl⟩ := e
  right
  refine ⟨[.connect 1, .connect 2], .signal 1 1 (.create 7 [2] false), [], rfl, by simp [Invites], ?_⟩
  intro p1 p2 e
  obtain rfl : p1 = [] := by cases p1 with | nil => rfl | cons a b => simp at e
  decide

/-- **C32 is false.** The owner check looks at the header field the client filled in: in every state any connected client
can end any group and remove any members. -/
theorem C32_counterexample_forged_header (s : Server) (c : Nat) (hc : c ∈ s.hosts) (key : Key) (peers : List Nat) :
    (step s (.signal c key.1 (.endGroup key))).1.groups.contains key = false ∧
    ∀ p ∈ peers, p ∉ members (step s (.signal c key.1 (.kick key peers))).1 key := by
  constructor
  · simp [step, hc, handle, clientSide, AMap.contains]
  · intro p hp
    have hg := clientSide_groups s c (.kick key peers)
    simp only [step, hc, if_true, handle, members, get?_modify, hg]
    cases s.groups.get? key with
    | none => simp
    | some g => simp [hp]

example : let s := after [.connect 1, .connect 2, .connect 3, .signal 1 1 (.create 7 [2] false), .signal 2 2 (.accept 2 (1, 7))]
    3 ∈ s.hosts ∧ s.groups.contains (1, 7) = true ∧ 2 ∈ members s (1, 7) := by decide

/-- **C32 (partial).** With honest headers: a group disappears only when its owner ends it or disconnects; a member is
removed only when the owner kicks it or it leaves by its own signal; a peer becomes invited only by the owner's signal
(or by its own request to join). Missing: the server does not tie the header to the session. -/
theorem C32_owner_only_partial (s : Server) (op : Op) (hh : HonestHeader op) (key : Key) :
    (s.groups.contains key = true → (step s op).1.groups.contains key = false →
      op = .signal key.1 key.1 (.endGroup key) ∨ op = .disconnect key.1) ∧
    (∀ p, (step s op).1.groups.contains key = true → p ∈ members s key → p ∉ members (step s op).1 key →
      (∃ l, op = .signal key.1 key.1 (.kick key l) ∧ p ∈ l) ∨ op = .signal p p (.leave key)) ∧
    (∀ p, p ∉ pending s key → p ∈ pending (step s op).1 key →
      Invites key p op ∨ op = .signal p p (.requestJoin key)) := by
  have none_contains : ∀ {m : AMap Key Group}, m.get? key = none → m.contains key = false := by
    intro m h; simp [AMap.contains, h]
  rcases step_group s op key with h | ⟨c, h, mgid, peers, pub, rfl, hc, hk, hn, h'⟩ | ⟨g, hg, h⟩
  · refine ⟨fun h1 h2 => ?_, fun p _ h1 h2 => ?_, fun p h1 h2 => ?_⟩
    · unfold AMap.contains at h1 h2; rw [h, h1] at h2; cases h2
    · unfold members at h1 h2; rw [h] at h2; exact absurd h1 h2
    · unfold pending at h1 h2; rw [h] at h2; exact absurd h2 h1
  · refine ⟨fun h1 _ => ?_, fun p _ h1 _ => ?_, fun p _ h2 => ?_⟩
    · rw [none_contains hn] at h1; cases h1
    · simp [members, hn] at h1
    · simp only [pending, h', Option.map_some, Option.getD_some] at h2
      have : h = c := hh
      subst this
      exact Or.inl ⟨hk.symm, h2⟩
  · have some_contains : s.groups.contains key = true := (contains_iff _ _).2 ⟨g, hg⟩
    have hm : members s key = g.members := by simp [members, hg]
    have hpd : pending s key = g.pending := by simp [pending, hg]
    rw [hm, hpd]
    rcases h with ⟨c, h, rfl, hc, h'⟩ | ⟨c, h, rfl, hc, hk, h'⟩ | ⟨c, h, t, rfl, hc, h'⟩ | ⟨c, h, t, rfl, hc, h'⟩ |
      ⟨c, h, rfl, hc, h'⟩ | ⟨c, h, l, rfl, hc, hk, h'⟩ | ⟨c, h, l, rfl, hc, hk, h'⟩ | ⟨rfl, h'⟩
    · obtain rfl : h = c := hh
      refine ⟨fun _ h2 => ?_, fun p _ h1 h2 => ?_, fun p h1 h2 => ?_⟩
      · rw [(contains_iff _ _).2 ⟨_, h'⟩] at h2; cases h2
      · simp only [members, h', Option.map_some, Option.getD_some] at h2
        refine absurd ?_ h2
        unfold joinGroup; simp only
        split
        · exact (mem_addTo _ _ _).2 (Or.inr h1)
        · exact h1
      · simp only [pending, h', Option.map_some, Option.getD_some] at h2
        have : (joinGroup h g).pending = h :: g.pending := by unfold joinGroup; simp only; split <;> rfl
        rw [this] at h2
        rcases List.mem_cons.1 h2 with rfl | h2
        · exact Or.inr rfl
        · exact absurd h2 h1
    · obtain rfl : h = c := hh
      subst hk
      refine ⟨fun _ _ => Or.inl rfl, fun p h1 _ _ => ?_, fun p _ h2 => ?_⟩
      · rw [none_contains h'] at h1; cases h1
      · simp [pending, h'] at h2
    · refine ⟨fun _ h2 => ?_, fun p _ h1 h2 => ?_, fun p h1 h2 => ?_⟩
      · rw [(contains_iff _ _).2 ⟨_, h'⟩] at h2; cases h2
      · simp only [members, h', Option.map_some, Option.getD_some] at h2
        refine absurd ?_ h2
        unfold upgrade
        split
        · exact (mem_addTo _ _ _).2 (Or.inr h1)
        · exact h1
      · simp only [pending, h', Option.map_some, Option.getD_some] at h2
        unfold upgrade at h2
        split at h2
        · exact absurd (List.mem_filter.1 h2).1 h1
        · exact absurd h2 h1
    · refine ⟨fun _ h2 => ?_, fun p _ h1 h2 => ?_, fun p h1 h2 => ?_⟩
      · rw [(contains_iff _ _).2 ⟨_, h'⟩] at h2; cases h2
      · simp only [members, h', Option.map_some, Option.getD_some] at h2
        exact absurd h1 h2
      · simp only [pending, h', Option.map_some, Option.getD_some] at h2
        exact absurd (List.mem_filter.1 h2).1 h1
    · obtain rfl : h = c := hh
      refine ⟨fun _ h2 => ?_, fun p _ h1 h2 => ?_, fun p h1 h2 => ?_⟩
      · rw [(contains_iff _ _).2 ⟨_, h'⟩] at h2; cases h2
      · simp only [members, h', Option.map_some, Option.getD_some, List.mem_filter, decide_eq_true_eq, not_and,
          not_not, ne_eq] at h2
        have := h2 h1
        subst this
        exact Or.inr rfl
      · simp only [pending, h', Option.map_some, Option.getD_some] at h2
        exact absurd h2 h1
    · obtain rfl : h = c := hh
      refine ⟨fun _ h2 => ?_, fun p _ h1 h2 => ?_, fun p h1 h2 => ?_⟩
      · rw [(contains_iff _ _).2 ⟨_, h'⟩] at h2; cases h2
      · simp only [members, h', Option.map_some, Option.getD_some] at h2
        exact absurd h1 h2
      · simp only [pending, h', Option.map_some, Option.getD_some] at h2
        rcases List.mem_append.1 h2 with h2 | h2
        · exact Or.inl ⟨rfl, hk, h2⟩
        · exact absurd h2 h1
    · obtain rfl : h = c := hh
      subst hk
      refine ⟨fun _ h2 => ?_, fun p _ h1 h2 => ?_, fun p h1 h2 => ?_⟩
      · rw [(contains_iff _ _).2 ⟨_, h'⟩] at h2; cases h2
      · simp only [members, h', Option.map_some, Option.getD_some, List.mem_filter, decide_eq_true_eq, not_and,
          not_not] at h2
        exact Or.inl ⟨l, rfl, h2 h1⟩
      · simp only [pending, h', Option.map_some, Option.getD_some] at h2
        exact absurd h2 h1
    · refine ⟨fun _ _ => Or.inr rfl, fun p h1 _ _ => ?_, fun p _ h2 => ?_⟩
      · rw [none_contains h'] at h1; cases h1
      · simp [pending, h'] at h2

/-- **C33 is false.** Client 3 never was a member, uses its own cid, and its message is delivered to all members. -/
theorem C33_counterexample_outsider :
    let s := after [.connect 1, .connect 2, .connect 3, .signal 1 1 (.create 7 [2] false), .signal 2 2 (.accept 2 (1, 7))]
    3 ∉ members s (1, 7) ∧ (step s (.signal 3 3 (.message (1, 7)))).2 = [2, 1] := by decide

theorem members_nodup (ops : List Op) (key : Key) : (members (after ops) key).Nodup := by
  induction ops using List.reverseRecOn with
  | nil => simp [after, init, members]
  | append_singleton ops op ih =>
    have nodup_addTo : ∀ (p : Nat) (l : List Nat), l.Nodup → (addTo p l).Nodup := by
      intro p l h; unfold addTo; split
      · exact h
      · rename_i hp; exact List.nodup_cons.2 ⟨hp, h⟩
    rw [after_snoc]
    rcases step_group (after ops) op key with h | ⟨c, h, mgid, peers, pub, rfl, hc, hk, hn, h'⟩ | ⟨g, hg, h⟩
    · unfold members at ih ⊢; rw [h]; exact ih
    · simp [members, h']
    · have hm : members (after ops) key = g.members := by simp [members, hg]
      rw [hm] at ih
      rcases h with ⟨c, h, rfl, hc, h'⟩ | ⟨c, h, rfl, hc, hk, h'⟩ | ⟨c, h, t, rfl, hc, h'⟩ | ⟨c, h, t, rfl, hc, h'⟩ |
        ⟨c, h, rfl, hc, h'⟩ | ⟨c, h, l, rfl, hc, hk, h'⟩ | ⟨c, h, l, rfl, hc, hk, h'⟩ | ⟨rfl, h'⟩ <;>
        simp only [members, h', Option.map_some, Option.map_none, Option.getD_some, Option.getD_none, List.nodup_nil]
      · unfold joinGroup; simp only; split
        · exact nodup_addTo _ _ ih
        · exact ih
      · unfold upgrade; split
        · exact nodup_addTo _ _ ih
        · exact ih
      · exact ih
      · exact ih.sublist List.filter_sublist
      · exact ih
      · exact ih.sublist List.filter_sublist

/-- **C33 (partial).** After any history, a message sent with an honest header reaches exactly the active members other
than the sender, each once. Missing: the sender need not be a member. -/
theorem C33_recipients_exact_partial (ops : List Op) (c : Nat) (hc : c ∈ (after ops).hosts) (key : Key) :
    let rcv := (step (after ops) (.signal c c (.message key))).2
    rcv.Nodup ∧ ∀ p, p ∈ rcv ↔ p ∈ members (after ops) key ∧ p ≠ c := by
  have hm : (step (after ops) (.signal c c (.message key))).2 = (members (after ops) key).filter (· ≠ c) := by
    simp only [step, hc, if_true, clientSide, handle, members]
    cases (after ops).groups.get? key <;> simp
  simp only [hm]
  exact ⟨(members_nodup ops key).sublist List.filter_sublist, fun p => by simp⟩

/-- **C59 is false.** A client that is no member sends a key package and becomes a leaf of the owner's ratchet tree. -/
theorem C59_counterexample_outsider_key :
    let ops : List Op := [.connect 1, .connect 3, .signal 1 1 (.create 7 [] false), .signal 3 3 (.keyPackage (1, 7) 3)]
    (∀ op ∈ ops, HonestHeader op) ∧ 3 ∈ keyHolders (after ops) (1, 7) ∧ 3 ∉ members (after ops) (1, 7) := by decide

/-- A member that leaves keeps its leaf: nobody re-keys. -/
theorem C59_counterexample_leave :
    let ops : List Op := [.connect 1, .connect 2, .signal 1 1 (.create 7 [2] false), .signal 2 2 (.accept 2 (1, 7)),
      .signal 2 2 (.keyPackage (1, 7) 2), .signal 2 2 (.leave (1, 7))]
    (∀ op ∈ ops, HonestHeader op) ∧ 2 ∈ keyHolders (after ops) (1, 7) ∧ 2 ∉ members (after ops) (1, 7) := by decide

/-- A group that is ended and created again starts with the key holders of the old one. -/
theorem C59_counterexample_recreate :
    let ops : List Op := [.connect 1, .connect 2, .signal 1 1 (.create 7 [2] false), .signal 2 2 (.accept 2 (1, 7)),
      .signal 2 2 (.keyPackage (1, 7) 2), .signal 1 1 (.endGroup (1, 7)), .signal 1 1 (.create 7 [] false)]
    (∀ op ∈ ops, HonestHeader op) ∧ 2 ∈ keyHolders (after ops) (1, 7) ∧ members (after ops) (1, 7) = [1] := by decide

theorem mem_foldl_erase (l t : List Nat) (hn : t.Nodup) (p : Nat) :
    (l.foldl List.erase t).Nodup ∧ (p ∈ l.foldl List.erase t ↔ p ∈ t ∧ p ∉ l) := by
  induction l generalizing t with
  | nil => simp [hn]
  | cons a l ih =>
    obtain ⟨h1, h2⟩ := ih (t.erase a) (hn.erase a)
    refine ⟨h1, ?_⟩
    rw [List.foldl_cons, h2, hn.mem_erase_iff, List.mem_cons]
    tauto

/-- What a disciplined step preserves. -/
def KeyInv (s : Server) : Prop :=
  ∀ key, (keyHolders s key).Nodup ∧ ∀ p ∈ keyHolders s key, p ≠ key.1 → p ∈ members s key

theorem keyInv_step (s : Server) (op : Op) (h : KeyInv s) (hd : KeyDisciplined s op) : KeyInv (step s op).1 := by
  intro key
  obtain ⟨hn, hm⟩ := h key
  cases op with
  | connect c => exact ⟨hn, hm⟩
  | disconnect c =>
    have h1 := get?_filter s.trees (fun k => decide (k.1 ≠ c)) key
    have h2 := get?_filter s.groups (fun k => decide (k.1 ≠ c)) key
    unfold keyHolders members at *
    simp only [step]
    rw [h1, h2]
    by_cases hc : key.1 = c
    · simp [hc]
    · simp only [ne_eq, hc, not_false_eq_true, decide_true, if_true]; exact ⟨hn, hm⟩
  | signal c h sig =>
    simp only [step]
    by_cases hc : c ∈ s.hosts
    swap
    · rw [if_neg hc]; exact ⟨hn, hm⟩
    rw [if_pos hc]
    cases sig with
    | create mgid peers pub =>
      obtain rfl : h = c := hd
      -- the tree side
      have ht : ∀ (s' : Server), (clientSide s h (.create mgid peers pub)).trees = s'.trees →
          (keyHolders s' key).Nodup ∧ ∀ p ∈ keyHolders s' key, p ≠ key.1 → p ∈ members s key := by
        intro s' e
        unfold keyHolders
        rw [← e]
        simp only [clientSide]
        split
        · exact ⟨hn, hm⟩
        · simp only [AMap.get?_insert]
          by_cases hk : key = (h, mgid)
          · subst hk; simp
          · rw [if_neg hk]; exact ⟨hn, hm⟩
      simp only [handle]
      have hg := clientSide_groups s h (.create mgid peers pub)
      split
      · rename_i hcond
        obtain ⟨h1, h2⟩ := ht _ (rfl : _ = ({ clientSide s h (.create mgid peers pub) with
          groups := (clientSide s h (.create mgid peers pub)).groups.insert (h, mgid)
            { members := [h], pending := peers, isPublic := pub } } : Server).trees)
        refine ⟨h1, fun p hp hne => ?_⟩
        have := h2 p hp hne
        simp only [members, AMap.get?_insert, hg] at this ⊢
        by_cases hk : key = (h, mgid)
        · subst hk
          have hx := hcond.2.2
          rw [hg] at hx
          unfold AMap.contains at hx
          cases hy : s.groups.get? (h, mgid) with
          | none => simp [hy] at this
          | some g => rw [hy] at hx; cases hx
        · rw [if_neg hk]; exact this
      · obtain ⟨h1, h2⟩ := ht _ rfl
        refine ⟨h1, fun p hp hne => ?_⟩
        have := h2 p hp hne
        unfold members at this ⊢
        rw [hg]; exact this
    | requestJoin k =>
      refine ⟨hn, fun p hp hne => ?_⟩
      have := hm p hp hne
      simp only [members, handle, clientSide, get?_modify] at this ⊢
      by_cases hk : key = k
      · subst hk
        simp only [if_true]
        cases hg : s.groups.get? key with
        | none => rw [hg] at this; exact this
        | some g =>
          rw [hg] at this
          simp only [Option.map_some, Option.getD_some] at this ⊢
          unfold joinGroup; simp only; split
          · exact (mem_addTo _ _ _).2 (Or.inr this)
          · exact this
      · rw [if_neg hk]; exact this
    | endGroup k => exact hd.elim
    | message k =>
      simp only [handle, clientSide]
      split <;> exact ⟨hn, hm⟩
    | accept t k =>
      refine ⟨hn, fun p hp hne => ?_⟩
      have := hm p hp hne
      simp only [members, handle, clientSide, get?_modify] at this ⊢
      by_cases hk : key = k
      · subst hk
        simp only [if_true]
        cases hg : s.groups.get? key with
        | none => rw [hg] at this; exact this
        | some g =>
          rw [hg] at this
          simp only [Option.map_some, Option.getD_some] at this ⊢
          unfold upgrade; split
          · exact (mem_addTo _ _ _).2 (Or.inr this)
          · exact this
      · rw [if_neg hk]; exact this
    | decline t k =>
      refine ⟨hn, fun p hp hne => ?_⟩
      have := hm p hp hne
      simp only [members, handle, clientSide, get?_modify] at this ⊢
      by_cases hk : key = k
      · subst hk
        simp only [if_true]
        cases hg : s.groups.get? key with
        | none => rw [hg] at this; exact this
        | some g => rw [hg] at this; exact this
      · rw [if_neg hk]; exact this
    | leave k => exact hd.elim
    | add k l =>
      simp only [handle, clientSide]
      split
      · refine ⟨hn, fun p hp hne => ?_⟩
        have := hm p hp hne
        simp only [members, get?_modify] at this ⊢
        by_cases hk : key = k
        · subst hk
          simp only [if_true]
          cases hg : s.groups.get? key with
          | none => rw [hg] at this; exact this
          | some g => rw [hg] at this; exact this
        · rw [if_neg hk]; exact this
      · exact ⟨hn, hm⟩
    | kick k l =>
      obtain rfl : h = c := hd
      simp only [handle, clientSide]
      by_cases ho : h = k.1
      · simp only [if_pos ho]
        unfold keyHolders at hn
        unfold keyHolders members at hm ⊢
        simp only [get?_modify]
        by_cases hk : key = k
        · subst hk
          simp only [if_true]
          cases ht : s.trees.get? key with
          | none => simp
          | some t =>
            simp only [ht, Option.getD_some, Option.map_some] at hn hm ⊢
            refine ⟨(mem_foldl_erase l t hn 0).1, fun p hp hne => ?_⟩
            obtain ⟨h1, h2⟩ := (mem_foldl_erase l t hn p).2.1 hp
            have := hm p h1 hne
            cases hg : s.groups.get? key with
            | none => rw [hg] at this; simp at this
            | some g => rw [hg] at this; simp at this ⊢; exact ⟨this, h2⟩
        · rw [if_neg hk, if_neg hk]; exact ⟨hn, hm⟩
      · simp only [if_neg ho]; exact ⟨hn, hm⟩
    | keyPackage k j =>
      obtain ⟨-, hj, hj2⟩ := hd
      have hcs : clientSide s c (.keyPackage k j) = s := rfl
      rw [hcs]
      simp only [handle]
      by_cases hh : k.1 ∈ s.hosts
      · rw [if_pos hh]
        unfold keyHolders at hn hj2
        unfold members at hj
        unfold keyHolders members at hm ⊢
        simp only [get?_modify]
        by_cases hk : key = k
        · subst hk
          simp only [if_true]
          cases ht : s.trees.get? key with
          | none => simp
          | some t =>
            simp only [ht, Option.getD_some, Option.map_some] at hn hm hj2 ⊢
            refine ⟨?_, fun p hp hne => ?_⟩
            · rw [List.nodup_append]
              refine ⟨hn, by simp, ?_⟩
              rintro a ha b hb rfl
              rw [List.mem_singleton] at hb; subst hb
              exact hj2 ha
            · rcases List.mem_append.1 hp with hp | hp
              · exact hm p hp hne
              · rw [List.mem_singleton] at hp; subst hp; exact hj
        · rw [if_neg hk]; exact ⟨hn, hm⟩
      · rw [if_neg hh]; exact ⟨hn, hm⟩

/-- **C59 (partial).** In histories whose steps are disciplined, everybody in the owner's ratchet tree is an active
member of the group at the server (in particular a kicked member is out of both). Missing: key packages of outsiders,
members that leave, groups that are ended and created again - for these the claim is false. -/
theorem C59_key_holders_are_members_partial (ops : List Op) (hd : AllDisciplined init ops) (key : Key) (p : Nat)
    (hp : p ∈ keyHolders (after ops) key) (hne : p ≠ key.1) : p ∈ members (after ops) key := by
  suffices h : ∀ s, KeyInv s → AllDisciplined s ops → KeyInv (ops.foldl (fun s op => (step s op).1) s) from
    (h init (by intro key; simp [keyHolders, init]) hd key).2 p hp hne
  clear hd hp
  induction ops with
  | nil => intro s h _; exact h
  | cons op ops ih => intro s h hd; exact ih _ (keyInv_step s op h hd.1) hd.2

/-- The hypothesis is met by a group with a member that joins and is kicked later. -/
example : let ops : List Op := [.connect 1, .connect 2, .signal 1 1 (.create 7 [2] false), .signal 2 2 (.accept 2 (1, 7)),
      .signal 2 2 (.keyPackage (1, 7) 2), .signal 1 1 (.message (1, 7)), .signal 1 1 (.kick (1, 7) [2])]
    AllDisciplined init ops ∧ keyHolders (after (ops.take 6)) (1, 7) = [1, 2] ∧ keyHolders (after ops) (1, 7) = [1] := by
  refine ⟨?_, by decide, by decide⟩
  simp only [AllDisciplined, KeyDisciplined, and_true, true_and]
  decide

end Verif.Roster

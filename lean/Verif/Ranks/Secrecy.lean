import Verif.Ranks.Props
/-
C154, and C153, C155, C158 with symbolic cryptography: what a demotion takes away, whatever the demoted members keep and share.
-/
namespace Verif.Ranks
open Verif Verif.Hierarchy Verif.Sym

/-- The random values an action draws. -/
def draws : Act Term → List Term
  | .accept _ s => [s]
  | .add _ s k _ => [s, k]
  | .demote _ root s k _ => [root, s, k]
  | .kick _ s k => [s, k]
  | .send _ ck _ _ => [ck]
  | .ownerSend ck _ _ => [ck]
  | _ => []

/-- Texts of the messages. -/
def texts : Act Term → List Term
  | .send _ _ m _ => [m]
  | .ownerSend _ m _ => [m]
  | _ => []

/-- What the relay sees of a message. -/
def Msg.wire : Msg Term → List Term
  | .flat e n ct => [.num e, n, ct]
  | .dhe e => e.wire

/-- A group and what happened to it. -/
structure Story where
  o : Cid
  ranks : AMap Cid Path
  s : Term
  k : Term
  root : Term
  acts : List (Act Term)

def Story.start (S : Story) : Sys Term := Sys.start symPrims S.o S.s S.k S.root (some (.superiorOnly, S.ranks))

/-- The owner follows the rules, and all that is drawn is random: different values, none of them twice. -/
structure Story.Fair (S : Story) : Prop where
  nodup : AMap.NodupKeys S.ranks
  noRank : S.ranks.get? S.o = none
  proper : ∀ a ∈ S.acts, Proper S.o a
  fresh : ∀ t ∈ [S.s, S.k, S.root] ++ S.acts.flatMap draws, ∃ n, t = .fresh n
  distinct : ([S.s, S.k, S.root] ++ S.acts.flatMap draws).Nodup

/-- Random values that only the owner and the members outside `K` have: the root in question, the content key and the text of the
message, and their leaf secrets. Everything else, also all other roots and all keys of the flat group, is given away. -/
def Story.Hidden (S : Story) (K : Cid → Prop) (R ck t : Nat) (n : Nat) : Prop :=
  n = R ∨ n = ck ∨ n = t ∨ ∃ c, ¬ K c ∧ Act.accept c (.fresh n) ∈ S.acts

/-- What the members in `K` together see: all assignments and all messages, and all random values that are not hidden (so their own leaf
secrets too). -/
inductive Story.Sees (S : Story) (K : Cid → Prop) (R ck t : Nat) : Term → Prop
  | assign {out e} : out ∈ outs symPrims S.start S.acts → e ∈ out.assigns → Sees S K R ck t (e.ct symPrims)
  | msg {out m u} : out ∈ outs symPrims S.start S.acts → out.msg = some m → u ∈ m.wire → Sees S K R ck t u
  | own {n} : ¬ S.Hidden K R ck t n → Sees S K R ck t (.fresh n)

theorem mem_outs {y : Sys Term} {acts : List (Act Term)} {out : Out Term} (h : out ∈ outs symPrims y acts) :
    ∃ pre a post, acts = pre ++ a :: post ∧ out = (act symPrims (run symPrims y pre) a).2 := by
  induction acts generalizing y with
  | nil => cases h
  | cons a acts ih =>
    rcases List.mem_cons.mp h with rfl | h
    · exact ⟨[], a, acts, rfl, rfl⟩
    · obtain ⟨pre, b, post, rfl, rfl⟩ := ih h
      exact ⟨a :: pre, b, post, rfl, rfl⟩

theorem outs_append (y : Sys Term) (as bs : List (Act Term)) :
    outs symPrims y (as ++ bs) = outs symPrims y as ++ outs symPrims (run symPrims y as) bs := by
  induction as generalizing y with
  | nil => rfl
  | cons a as ih => simp only [List.cons_append, outs, run, ih]

/-- The leaf secret of a client is the one it drew. -/
theorem leaf_drawn {y : Sys Term} (acts : List (Act Term)) (all : List (Act Term))
    (h0 : ∀ c cl, y.clients c = some cl → Act.accept c cl.leafSecret ∈ all) (hs : ∀ a ∈ acts, a ∈ all) :
    ∀ c cl, (run symPrims y acts).clients c = some cl → Act.accept c cl.leafSecret ∈ all := by
  induction acts generalizing y with
  | nil => exact h0
  | cons a acts ih =>
    refine ih (y := (act symPrims y a).1) ?_ (fun b hb => hs b (List.mem_cons_of_mem _ hb))
    intro c cl hc
    have ha := hs a List.mem_cons_self
    have hput : ∀ (d : Cid) (dl dl' : Client Term), y.clients d = some dl → dl'.leafSecret = dl.leafSecret →
        put y.clients d (some dl') c = some cl → Act.accept c cl.leafSecret ∈ all := by
      intro d dl dl' h1 h2 h3
      unfold put at h3
      by_cases e : c = d
      · rw [if_pos e, Option.some.injEq] at h3
        subst h3
        rw [h2, e]
        exact h0 d dl h1
      · rw [if_neg e] at h3
        exact h0 c cl h3
    cases a with
    | accept d s =>
      simp only [act] at hc
      cases hd : y.clients d with
      | some dl => rw [hd] at hc; exact h0 c cl hc
      | none =>
        rw [hd] at hc
        simp only [put] at hc
        by_cases e : c = d
        · rw [if_pos e, Option.some.injEq] at hc
          subst hc
          rw [e]
          exact ha
        · rw [if_neg e] at hc
          exact h0 c cl hc
    | add d s k r =>
      simp only [act] at hc
      repeat' split at hc
      all_goals exact h0 c cl hc
    | promote d p r =>
      simp only [act] at hc
      repeat' split at hc
      all_goals exact h0 c cl hc
    | demote d r s k n =>
      simp only [act] at hc
      repeat' split at hc
      all_goals exact h0 c cl hc
    | kick d s k =>
      simp only [act] at hc
      repeat' split at hc
      all_goals exact h0 c cl hc
    | leave d => exact h0 c cl hc
    | getRouted d =>
      simp only [act] at hc
      cases hq : y.routed d with
      | nil => rw [hq] at hc; exact h0 c cl hc
      | cons p rest =>
        rw [hq] at hc
        simp only at hc
        split at hc
        · repeat' split at hc
          all_goals exact h0 c cl hc
        · cases hd : y.clients d with
          | none => rw [hd] at hc; exact h0 c cl hc
          | some dl =>
            rw [hd] at hc
            simp only at hc
            split at hc
            · rename_i dl' he
              refine hput d dl dl' hd ?_ hc
              cases p with
              | assign ct =>
                simp only [applyAssignment] at he
                split at he
                · cases he
                · cases he; rfl
              | welcome g =>
                simp only [join] at he
                split at he
                · cases he; rfl
                · cases he
            · exact h0 c cl hc
    | getCommit d =>
      simp only [act] at hc
      cases hq : y.commits d with
      | nil => rw [hq] at hc; exact h0 c cl hc
      | cons g rest =>
        rw [hq] at hc
        simp only at hc
        cases hd : y.clients d with
        | none => rw [hd] at hc; exact h0 c cl hc
        | some dl =>
          rw [hd] at hc
          simp only at hc
          split at hc
          · rename_i dl' he
            refine hput d dl dl' hd ?_ hc
            unfold processCommit at he
            repeat' split at he
            all_goals first | cases he; rfl | cases he
          · exact h0 c cl hc
    | send d ck m r => exact h0 c cl hc
    | ownerSend ck m r => exact h0 c cl hc

/-- A root is drawn at the creation or by a demotion. -/
theorem rootOf_drawn (root : Term) (as : List (Act Term)) :
    rootOf root as = root ∨ ∃ c s k n, Act.demote c (rootOf root as) s k n ∈ as := by
  induction as generalizing root with
  | nil => exact .inl rfl
  | cons a as ih =>
    rw [rootOf_cons]
    rcases ih (rootOf root [a]) with h | ⟨c, s, k, n, h⟩
    · rw [h]
      cases a with
      | demote c r s k n => exact .inr ⟨c, s, k, n, List.mem_cons_self⟩
      | _ => exact .inl rfl
    · exact .inr ⟨c, s, k, n, List.mem_cons_of_mem _ h⟩

theorem node_term (root : Term) (p : Path) : node symPrims root p = nodeTerm root p := rfl

/-- Different roots have different nodes. -/
theorem nodeTerm_root {a b : Nat} : ∀ (n : Nat) (p q : Path), p.length = n → nodeTerm (.fresh a) p = nodeTerm (.fresh b) q → a = b := by
  intro n
  induction n with
  | zero =>
    intro p q hp h
    obtain rfl := List.length_eq_zero_iff.1 hp
    rcases concat_cases q with rfl | ⟨q', s, rfl⟩
    · simpa [nodeTerm] using h
    · rw [nodeTerm_concat] at h; exact absurd h (by simp [nodeTerm])
  | succ n ih =>
    intro p q hp h
    rcases concat_cases p with rfl | ⟨p', s, rfl⟩
    · simp at hp
    rcases concat_cases q with rfl | ⟨q', s', rfl⟩
    · rw [nodeTerm_concat] at h; exact absurd h (by simp [nodeTerm])
    rw [nodeTerm_concat, nodeTerm_concat] at h
    simp only [Term.hash.injEq, Term.pair.injEq, Term.lit.injEq, true_and] at h
    exact ih p' q' (by simpa using hp) h.1

/-- Clean nodes. -/
theorem node_clean {Sc : Nat → Prop} {n : Nat} (h : ¬ Sc n) (q : Path) : Clean Sc (nodeTerm (.fresh n) q) := by
  induction q using List.reverseRecOn with
  | nil => exact h
  | append_singleton q s ih =>
    rw [nodeTerm_concat]
    exact ⟨trivial, ih, trivial⟩

/-- The emission facts at a point of the story. -/
theorem Story.Fair.emits {S : Story} (hf : S.Fair) {pre post : List (Act Term)} {a : Act Term} (hs : S.acts = pre ++ a :: post)
    {e : Sealed Term} (he : e ∈ (act symPrims (run symPrims S.start pre) a).2.assigns) :
    ∃ l q, Act.accept e.to l ∈ S.acts ∧ e.pk = symPrims.leafPub l ∧
      e.member = ⟨q, nodeTerm (rootOf S.root (pre ++ [a])) q, .superiorOnly⟩ ∧
      rankOf e.to (S.ranks.get? e.to) (pre ++ [a]) = some q := by
  have hpre : ∀ b ∈ pre, Proper S.o b := fun b hb => hf.proper b (by rw [hs]; exact List.mem_append_left _ hb)
  have ha : Proper S.o a := hf.proper a (by rw [hs]; exact List.mem_append_right _ List.mem_cons_self)
  obtain ⟨h1, h2⟩ := (Inv.start (P := symPrims) S.o S.s S.k S.root .superiorOnly S.ranks hf.nodup hf.noRank).run
    symPrims_lawful pre hpre
  obtain ⟨-, h3, h4⟩ := h1.step symPrims_lawful ha
  obtain ⟨cl, q, hcl, hpk, hm, hr⟩ := (h3 e he).ex
  refine ⟨cl.leafSecret, q, ?_, hpk, ?_, ?_⟩
  · exact leaf_drawn pre S.acts (y := S.start) (fun c cl hc => by simp [Story.start, Sys.start] at hc)
      (fun b hb => by rw [hs]; exact List.mem_append_left _ hb) e.to cl hcl
  · rw [rootOf_append]
    exact hm
  · have : rankOf e.to (S.ranks.get? e.to) (pre ++ [a]) = rankOf e.to (rankOf e.to (S.ranks.get? e.to) pre) [a] := by
      generalize S.ranks.get? e.to = rk
      clear h4 hr hm hpk hcl h3 h2 h1 ha hpre he hs
      induction pre generalizing rk with
      | nil => rfl
      | cons b pre ih =>
        rw [List.cons_append, rankOf_cons, rankOf_cons _ _ b pre]
        exact ih _
    rw [this]
    have h5 := h4 e.to
    rw [h2] at h5
    rw [← hr, h5]
    rfl

/-- The message under attack: after `pre`, `x`, at `p` below the root `R`, sends the text `t` with the content key `ck`. What others send
contains none of the hidden values. -/
structure Story.Target (S : Story) (K : Cid → Prop) (x : Cid) (p : Path) (R ck t : Nat) (pre post : List (Act Term)) : Prop where
  acts : ∃ r, S.acts = pre ++ .send x (.fresh ck) (.fresh t) r :: post
  placed : ∃ cl, (run symPrims S.start pre).clients x = some cl ∧ cl.mode = some .superiorOnly ∧
    cl.self = some ⟨p, nodeTerm (.fresh R) p, .superiorOnly⟩
  text : ∀ b ∈ pre ++ post, ∀ u ∈ texts b, Clean (S.Hidden K R ck t) u
  undrawn : Term.fresh t ∉ [S.s, S.k, S.root] ++ S.acts.flatMap draws
  root : ∃ as, as <+: S.acts ∧ rootOf S.root as = .fresh R

open Classical in
/-- The attack on one message, as in `Verif.Hierarchy`. -/
noncomputable def Story.attack (S : Story) (K : Cid → Prop) (p : Path) (R ck t : Nat) : Attack where
  root := R
  flat := 0
  ck := ck
  text := t
  sender := p
  policy := .superiorOnly
  r := 0
  coalition := (((outs symPrims S.start S.acts).flatMap Out.assigns).filter fun e =>
    decide (K e.to ∧ e.member.secret = nodeTerm (.fresh R) e.member.path)).map fun e => e.member.path
  flatKnown := True
  others := []
  assigned := S.acts.filterMap fun
    | .accept c (.fresh n) => if K c then none else some ⟨p, n, 0⟩
    | _ => none

theorem Story.mem_coalition {S : Story} {K : Cid → Prop} {p q : Path} {R ck t : Nat} :
    q ∈ (S.attack K p R ck t).coalition ↔ ∃ out ∈ outs symPrims S.start S.acts, ∃ e ∈ out.assigns,
      K e.to ∧ e.member.secret = nodeTerm (.fresh R) q ∧ e.member.path = q := by
  simp only [Story.attack, List.mem_map, List.mem_filter, List.mem_flatMap, decide_eq_true_eq]
  constructor
  · rintro ⟨e, ⟨⟨out, h1, h2⟩, h3, h4⟩, rfl⟩
    exact ⟨out, h1, e, h2, h3, h4, rfl⟩
  · rintro ⟨out, h1, e, h2, h3, h4, rfl⟩
    exact ⟨e, ⟨⟨out, h1, h2⟩, h3, h4⟩, rfl⟩

theorem Story.mem_assigned {S : Story} {K : Cid → Prop} {p : Path} {R ck t : Nat} {a : Assigned} :
    a ∈ (S.attack K p R ck t).assigned ↔ a.path = p ∧ a.r = 0 ∧ ∃ c, ¬ K c ∧ Act.accept c (.fresh a.leaf) ∈ S.acts := by
  simp only [Story.attack, List.mem_filterMap]
  constructor
  · rintro ⟨b, h1, h2⟩
    split at h2
    · split at h2
      · cases h2
      · rename_i hk
        cases h2
        exact ⟨rfl, rfl, _, hk, h1⟩
    · cases h2
  · rintro ⟨rfl, h2, c, h3, h4⟩
    refine ⟨_, h4, ?_⟩
    simp only [if_neg h3]
    obtain ⟨a1, a2, a3⟩ := a
    simp only at h2
    rw [h2]

theorem Story.secret_iff {S : Story} {K : Cid → Prop} {p : Path} {R ck t : Nat} 
    (hno : ∀ q ∈ (S.attack K p R ck t).coalition, ¬ q <+: p) (n : Nat) :
    (S.attack K p R ck t).Secret n ↔ S.Hidden K R ck t n := by
  have hp : (S.attack K p R ck t).Protected := ⟨hno, fun h => by cases h⟩
  unfold Attack.Secret Story.Hidden
  constructor
  · rintro (h | ⟨h | h, -⟩ | ⟨-, h⟩ | ⟨a, ha, h1, h2⟩)
    · exact .inl h
    · exact .inr (.inl h)
    · exact .inr (.inr (.inl h))
    · exact absurd trivial h
    · obtain ⟨-, -, c, h3, h4⟩ := Story.mem_assigned.mp ha
      exact .inr (.inr (.inr ⟨c, h3, by rw [h1]; exact h4⟩))
  · rintro (h | h | h | ⟨c, h3, h4⟩)
    · exact .inl h
    · exact .inr (.inl ⟨.inl h, hp⟩)
    · exact .inr (.inl ⟨.inr h, hp⟩)
    · exact .inr (.inr (.inr ⟨⟨p, n, 0⟩, Story.mem_assigned.mpr ⟨rfl, rfl, c, h3, h4⟩, rfl, hno⟩))

theorem clean_of_imp {S T : Nat → Prop} (h : ∀ n, T n → S n) : ∀ {u : Term}, Clean S u → Clean T u
  | .fresh _, hc => fun ht => hc (h _ ht)
  | .lit _, _ => trivial
  | .num _, _ => trivial
  | .pair _ _, hc => ⟨clean_of_imp h hc.1, clean_of_imp h hc.2⟩
  | .hash t, hc => clean_of_imp (u := t) h hc
  | .pk s, hc => clean_of_imp (u := s) h hc
  | .aenc _ _ _, hc => ⟨clean_of_imp h hc.1, clean_of_imp h hc.2⟩
  | .senc _ _ _, hc => ⟨clean_of_imp h hc.1, clean_of_imp h hc.2.1, clean_of_imp h hc.2.2⟩

/-- A message whose text and content key are not hidden. -/
theorem encrypt_pub {sec : Nat → Prop} {leak : Term → Prop} {cl : Client Term} {ck m : Term} {r : Nat} {msg : Msg Term}
    (h : encrypt symPrims cl ck m r = some msg) (hck : Pub sec leak ck) (hm : Pub sec leak m)  :
    ∀ u ∈ msg.wire, Pub sec leak u := by
  unfold encrypt at h
  split at h
  · simp only [Option.map_eq_some_iff] at h
    obtain ⟨g, -, rfl⟩ := h
    intro u hu
    simp only [Msg.wire, List.mem_cons, List.not_mem_nil, or_false] at hu
    rcases hu with rfl | rfl | rfl
    · trivial
    · exact hck
    · exact fun _ => hm
  · split at h
    · cases h
    · simp only [Option.map_eq_some_iff] at h
      obtain ⟨e, he, rfl⟩ := h
      obtain ⟨e1, e2, e3, e4⟩ := seal_some symPrims he
      intro u hu
      simp only [Msg.wire] at hu
      unfold Envelope.wire at hu
      rw [e1, e2, e3] at hu
      simp only [List.cons_append, List.nil_append, List.mem_cons] at hu
      rcases hu with rfl | rfl | rfl | hu
      · exact clean_pub (encPath_clean _ _)
      · exact fun _ => hm
      · exact fun _ => hck
      · rcases e4 with ⟨-, e4⟩ | ⟨f, hp, hf, e4⟩
        · rw [e4] at hu; simp at hu
        · rw [e4] at hu
          simp only [List.mem_cons, List.not_mem_nil, or_false] at hu
          rcases hu with rfl | rfl
          · exact .inr ⟨trivial, hck⟩
          · exact fun _ => hck

/-- What is sent, by whom. -/
theorem msg_of_act {y : Sys Term} {a : Act Term} {msg : Msg Term} (h : (act symPrims y a).2.msg = some msg) :
    ∃ cl ck m r, encrypt symPrims cl ck m r = some msg ∧ draws a = [ck] ∧ texts a = [m] ∧
      ∀ x ck' m' r', a = .send x ck' m' r' → y.clients x = some cl ∧ r' = r := by
  cases a with
  | send x ck m r =>
    simp only [act, Option.bind_eq_some_iff] at h
    obtain ⟨cl, h1, h2⟩ := h
    exact ⟨cl, ck, m, r, h2, rfl, rfl, fun x' ck' m' r' e => by cases e; exact ⟨h1, rfl⟩⟩
  | ownerSend ck m r =>
    exact ⟨y.owner, ck, m, r, h, rfl, rfl, fun x' ck' m' r' e => by cases e⟩
  | accept c s => simp only [act] at h; split at h <;> cases h
  | add d s k r => simp only [act] at h; repeat' split at h
                   all_goals cases h
  | promote d p r => simp only [act] at h; repeat' split at h
                     all_goals cases h
  | demote d r s k n => simp only [act] at h; repeat' split at h
                        all_goals cases h
  | kick d s k => simp only [act] at h; repeat' split at h
                  all_goals cases h
  | leave d => cases h
  | getRouted d => simp only [act] at h; repeat' split at h
                   all_goals cases h
  | getCommit d => simp only [act] at h; repeat' split at h
                   all_goals cases h

/-- In a list without repetitions, what is drawn in two places differs. -/
theorem draws_at {S : Story} (hf : S.Fair) {pre post : List (Act Term)} {a : Act Term} (hs : S.acts = pre ++ a :: post) {u : Term}
    (hu : u ∈ draws a) : u ∉ [S.s, S.k, S.root] ∧ (∀ b ∈ pre ++ post, u ∉ draws b) ∧ u ∈ S.acts.flatMap draws := by
  have h := hf.distinct
  have hmem : u ∈ S.acts.flatMap draws := by
    rw [hs]; exact List.mem_flatMap.mpr ⟨a, List.mem_append_right _ List.mem_cons_self, hu⟩
  have hd := (List.nodup_append.mp h)
  refine ⟨fun h0 => hd.2.2 u h0 u hmem rfl, ?_, hmem⟩
  have h2 := hd.2.1
  rw [hs, List.flatMap_append, List.flatMap_cons] at h2
  have h3 := List.nodup_append.mp h2
  have h4 := List.nodup_append.mp h3.2.1
  intro b hb hub
  rcases List.mem_append.mp hb with hb | hb
  · exact h3.2.2 u (List.mem_flatMap.mpr ⟨b, hb, hub⟩) u (List.mem_append_left _ hu) rfl
  · exact h4.2.2 u hu u (List.mem_flatMap.mpr ⟨b, hb, hub⟩) rfl

theorem split_cases {A : Type} {pre post pre' post' : List A} {a b : A} (h : pre ++ a :: post = pre' ++ b :: post') :
    (pre = pre' ∧ a = b ∧ post = post') ∨ b ∈ pre ++ post := by
  induction pre generalizing pre' with
  | nil =>
    cases pre' with
    | nil => cases h; exact .inl ⟨rfl, rfl, rfl⟩
    | cons c pre' =>
      rw [List.nil_append, List.cons_append] at h
      cases h
      exact .inr (by simp)
  | cons c pre ih =>
    cases pre' with
    | nil =>
      rw [List.nil_append, List.cons_append] at h
      cases h
      exact .inr (by simp)
    | cons d pre' =>
      rw [List.cons_append, List.cons_append] at h
      obtain ⟨hcd, h'⟩ := List.cons.inj h
      subst hcd
      rcases ih h' with ⟨rfl, h2⟩ | h2
      · exact .inl ⟨rfl, h2⟩
      · exact .inr (List.mem_cons_of_mem _ h2)

/-- What two actions draw tells them apart. -/
theorem draws_unique {S : Story} (hf : S.Fair) {a b : Act Term} (ha : a ∈ S.acts) (hb : b ∈ S.acts) {u : Term} (hu : u ∈ draws a)
    (hv : u ∈ draws b) : a = b := by
  obtain ⟨pre, post, hs⟩ := List.append_of_mem ha
  obtain ⟨pre', post', hs'⟩ := List.append_of_mem hb
  rcases split_cases (hs.symm.trans hs') with ⟨-, h, -⟩ | h
  · exact h
  · exact absurd hv ((draws_at hf hs hu).2.1 b h)

theorem not_start {S : Story} (hf : S.Fair) {b : Act Term} (hb : b ∈ S.acts) (hv : S.root ∈ draws b) : False := by
  obtain ⟨pre, post, hs⟩ := List.append_of_mem hb
  exact (draws_at hf hs hv).1 (by simp)

/-- A root is not drawn by anything but a demotion. -/
theorem root_not_drawn {S : Story} (hf : S.Fair) {as : List (Act Term)} (has : as <+: S.acts) {b : Act Term} (hb : b ∈ S.acts)
    (hv : rootOf S.root as ∈ draws b) : ∃ c s k n, b = .demote c (rootOf S.root as) s k n := by
  rcases rootOf_drawn S.root as with h | ⟨c, s, k, n, h⟩
  · rw [h] at hv
    exact (not_start hf hb hv).elim
  · exact ⟨c, s, k, n, (draws_unique hf (has.subset h) hb (by simp [draws]) hv).symm⟩

/-- Any root but `R` is given away. -/
theorem root_not_hidden {S : Story} (hf : S.Fair) {K : Cid → Prop} {x : Cid} {p : Path} {R ck t : Nat} {pre post : List (Act Term)}
    (ht : S.Target K x p R ck t pre post) {as : List (Act Term)} (has : as <+: S.acts) {n : Nat}
    (hn : rootOf S.root as = .fresh n) (hne : n ≠ R) : ¬ S.Hidden K R ck t n := by
  obtain ⟨r, hacts⟩ := ht.acts
  have hd : Term.fresh n ∈ [S.s, S.k, S.root] ++ S.acts.flatMap draws := by
    rw [← hn]
    rcases rootOf_drawn S.root as with h | ⟨c, s, k, n, h⟩
    · rw [h]; simp
    · exact List.mem_append_right _ (List.mem_flatMap.mpr ⟨_, has.subset h, by simp [draws]⟩)
  rintro (h | h | h | ⟨c, -, h⟩)
  · exact hne h
  · subst h
    obtain ⟨c, s, k, m, h⟩ := root_not_drawn hf has (b := .send x (.fresh n) (.fresh t) r)
      (by rw [hacts]; simp) (by rw [hn]; simp [draws])
    cases h
  · subst h
    exact ht.undrawn hd
  · obtain ⟨c', s, k, m, h⟩ := root_not_drawn hf has h (by rw [hn]; simp [draws])
    cases h

/-- All they see is within what they may know. -/
theorem Story.sees_pub {S : Story} (hf : S.Fair) {K : Cid → Prop} {x : Cid} {p : Path} {R ck t : Nat} {pre post : List (Act Term)}
    (ht : S.Target K x p R ck t pre post) (hno : ∀ q ∈ (S.attack K p R ck t).coalition, ¬ q <+: p) {u : Term}
    (hu : S.Sees K R ck t u) : Pub (S.attack K p R ck t).Secret (S.attack K p R ck t).Leak u := by
  obtain ⟨r, hacts⟩ := ht.acts
  have hiff := Story.secret_iff hno
  cases hu with
  | @assign out e hout he =>
    obtain ⟨pre', a, post', hs, rfl⟩ := mem_outs hout
    obtain ⟨l, q, h1, h2, h3, -⟩ := hf.emits hs he
    have hpre : (pre' ++ [a]) <+: S.acts := ⟨post', by rw [hs]; simp⟩
    obtain ⟨n, hl⟩ := hf.fresh l (List.mem_append_right _ (List.mem_flatMap.mpr ⟨_, h1, by simp [draws]⟩))
    subst hl
    unfold Sealed.ct Member.sealTo
    rw [h2]
    intro hk
    rw [h3]
    refine ⟨clean_pub (encPath_clean _ _), ?_, trivial⟩
    by_cases hK : K e.to
    · obtain ⟨n', hn'⟩ : ∃ n', rootOf S.root (pre' ++ [a]) = .fresh n' := by
        apply hf.fresh
        rcases rootOf_drawn S.root (pre' ++ [a]) with h | ⟨c, s, k, n, h⟩
        · rw [h]; simp
        · exact List.mem_append_right _ (List.mem_flatMap.mpr ⟨_, hpre.subset h, by simp [draws]⟩)
      rw [hn']
      by_cases hR : n' = R
      · subst hR
        have hq : q ∈ (S.attack K p n' ck t).coalition :=
          Story.mem_coalition.mpr ⟨_, hout, e, he, hK, by rw [h3, hn'], by rw [h3]⟩
        exact (pub_coalition hq List.prefix_rfl).resolve_right (fun h => hno _ h List.nil_prefix)
      · refine clean_pub (node_clean ?_ q)
        rw [hiff]
        exact root_not_hidden hf ht hpre hn' hR
    · refine absurd hk (not_pub_leaf (A := S.attack K p R ck t) (a := ⟨p, n, 0⟩) ?_ hno)
      exact Story.mem_assigned.mpr ⟨rfl, rfl, e.to, hK, h1⟩
  | @msg out m u hout hm hu =>
    obtain ⟨pre', a, post', hs, rfl⟩ := mem_outs hout
    obtain ⟨cl, k, w, r', henc, hdr, htx, hsend⟩ := msg_of_act hm
    rcases split_cases (hacts.symm.trans hs) with ⟨rfl, rfl, rfl⟩ | hother
    · obtain ⟨cl', hcl, hmode, hself⟩ := ht.placed
      obtain ⟨h1, rfl⟩ := hsend _ _ _ _ rfl
      have : cl = cl' := by rw [hcl] at h1; cases h1; rfl
      subst this
      cases hdr
      cases htx
      rw [encrypt_dhe hmode hself] at henc
      simp only [Option.map_eq_some_iff] at henc
      obtain ⟨e, he, rfl⟩ := henc
      obtain ⟨e1, e2, e3, e4⟩ := seal_some symPrims he
      simp only [Msg.wire] at hu
      unfold Envelope.wire at hu
      rw [e1, e2, e3] at hu
      simp only [List.cons_append, List.nil_append, List.mem_cons] at hu
      rcases hu with rfl | rfl | rfl | hu
      · exact clean_pub (encPath_clean _ _)
      · intro h
        exact absurd ((hiff ck).mpr (.inr (.inl rfl))) h
      · exact fun h => absurd h (not_pub_seed hno)
      · rcases e4 with ⟨-, e4⟩ | ⟨f, hp, hf, e4⟩
        · rw [e4] at hu; simp at hu
        · cases hp
    · have ha : a ∈ S.acts := by rw [hs]; simp
      have hka : k ∈ draws a := by rw [hdr]; simp
      obtain ⟨n, rfl⟩ := hf.fresh k (List.mem_append_right _ (List.mem_flatMap.mpr ⟨a, ha, hka⟩))
      refine encrypt_pub henc ?_ ?_ u hu
      · change ¬ _
        rw [hiff]
        rintro (h | h | h | ⟨c, -, h⟩)
        · obtain ⟨as, has, hR⟩ := ht.root
          subst h
          obtain ⟨c, s, k, m, h⟩ := root_not_drawn hf has ha (by rw [hR]; exact hka)
          subst h
          simp [draws] at hdr
        · subst h
          exact (draws_at hf hacts (u := .fresh n) (by simp [draws])).2.1 a hother hka
        · subst h
          exact ht.undrawn (List.mem_append_right _ (List.mem_flatMap.mpr ⟨a, ha, hka⟩))
        · have := draws_unique hf ha h hka (by simp [draws])
          subst this
          cases htx
      · exact clean_pub (clean_of_imp (fun n h => (hiff n).mp h) (ht.text a hother w (by rw [htx]; simp)))
  | own h =>
    change ¬ _
    rw [hiff]
    exact h

/-- **C154.** Let `K` be any members, who keep everything they were ever sent and put it together, and let `x`, at `p` below the root `R`,
send a message to its superiors. If nobody in `K` was ever given a position at or above `p` below this root, they cannot compute
the text, also if they know all other roots that were ever drawn and all keys of the flat group. -/
theorem C154_secrecy {S : Story} (hf : S.Fair) {K : Cid → Prop} {x : Cid} {p : Path} {R ck t : Nat} {pre post : List (Act Term)}
    (ht : S.Target K x p R ck t pre post)
    (hno : ∀ out ∈ outs symPrims S.start S.acts, ∀ e ∈ out.assigns, K e.to →
      e.member.secret = nodeTerm (.fresh R) e.member.path → ¬ e.member.path <+: p) :
    ¬ Derives (S.Sees K R ck t) (.fresh t) := by
  have hno' : ∀ q ∈ (S.attack K p R ck t).coalition, ¬ q <+: p := by
    intro q hq
    obtain ⟨out, h1, e, h2, h3, h4, rfl⟩ := Story.mem_coalition.mp hq
    exact hno out h1 e h2 h3 h4
  intro hd
  have := pub_of_derives (fun _ => Story.sees_pub hf ht hno') hd
  exact this ((Story.secret_iff hno' t).mpr (.inr (.inr (.inl rfl))))

/-! ### A demotion -/

theorem rankOf_cases (c : Cid) (rk : Option Path) (as : List (Act Term)) {q : Path} (h : rankOf c rk as = some q) :
    rk = some q ∨ (∃ r, Act.promote c q r ∈ as) ∨ q = demotedPath c := by
  induction as generalizing rk with
  | nil => exact .inl h
  | cons a as ih =>
    rw [rankOf_cons] at h
    rcases ih _ h with h | ⟨r, h⟩ | h
    · cases a with
      | promote x path r =>
        simp only [rankOf] at h
        by_cases e : x = c
        · rw [if_pos e] at h; cases h; subst e
          exact .inr (.inl ⟨r, List.mem_cons_self⟩)
        · rw [if_neg e] at h; exact .inl h
      | demote x r s k n =>
        simp only [rankOf] at h
        by_cases e : x = c
        · rw [if_pos e] at h; cases h; subst e
          exact .inr (.inr rfl)
        · rw [if_neg e] at h; exact .inl h
      | _ => exact .inl h
    · exact .inr (.inl ⟨r, List.mem_cons_of_mem _ h⟩)
    · exact .inr (.inr h)

theorem rankOf_append (c : Cid) (rk : Option Path) (as bs : List (Act Term)) :
    rankOf c rk (as ++ bs) = rankOf c (rankOf c rk as) bs := by
  induction as generalizing rk with
  | nil => rfl
  | cons a as ih =>
    rw [List.cons_append, rankOf_cons, rankOf_cons _ _ a as]
    exact ih _

/-- Before the demotion the root is another one. -/
theorem root_before {S : Story} (hf : S.Fair) {before after : List (Act Term)} {d : Cid} {R : Nat} {s k : Term} {r : Cid → Nat}
    (hs : S.acts = before ++ .demote d (.fresh R) s k r :: after) {as : List (Act Term)} (has : as <+: before) :
    rootOf S.root as ≠ .fresh R := by
  intro h
  have hat := draws_at hf hs (u := .fresh R) (by simp [draws])
  rcases rootOf_drawn S.root as with h1 | ⟨c, s', k', n, h1⟩
  · exact hat.1 (by rw [← h, h1]; simp)
  · rw [h] at h1
    exact hat.2.1 _ (List.mem_append_left _ (has.subset h1)) (by simp [draws])

theorem prefix_cases {A : Type} {as before after : List A} {a : A} (h : as <+: before ++ a :: after) :
    as <+: before ∨ ∃ cs, as = before ++ a :: cs ∧ cs <+: after := by
  induction before generalizing as with
  | nil =>
    cases as with
    | nil => exact .inl List.nil_prefix
    | cons b as =>
      rw [List.nil_append, List.cons_prefix_cons] at h
      exact .inr ⟨as, by rw [h.1]; rfl, h.2⟩
  | cons b before ih =>
    cases as with
    | nil => exact .inl List.nil_prefix
    | cons c as =>
      rw [List.cons_append, List.cons_prefix_cons] at h
      rcases ih h.2 with h2 | ⟨cs, h2, h3⟩
      · exact .inl (List.cons_prefix_cons.mpr ⟨h.1, h2⟩)
      · exact .inr ⟨cs, by rw [h.1, h2]; rfl, h3⟩

/-- **C154.** A demotion takes effect: what is sent below the new root, by anybody not below a rank that `d` was given since, stays closed to
`d`, and to everybody else of whom the same holds. -/
theorem C154_demoted {S : Story} (hf : S.Fair) {K : Cid → Prop} {x : Cid} {p : Path} {R ck t : Nat} {pre post : List (Act Term)}
    (ht : S.Target K x p R ck t pre post) {before after : List (Act Term)} {y : Cid} {s k : Term} {r : Cid → Nat}
    (hs : S.acts = before ++ .demote y (.fresh R) s k r :: after)
    (hrank : ∀ d, K d → ∀ q, q <+: p → (d ≠ y → rankOf d (S.ranks.get? d) before ≠ some q) ∧ demotedPath d ≠ q ∧
      ∀ r, Act.promote d q r ∉ after) :
    ¬ Derives (S.Sees K R ck t) (.fresh t) := by
  refine C154_secrecy hf ht ?_
  intro out hout e he hK hsec hpre
  obtain ⟨pre', a, post', hs', rfl⟩ := mem_outs hout
  obtain ⟨l, q, -, -, h3, h4⟩ := hf.emits hs' he
  have hp' : (pre' ++ [a]) <+: S.acts := ⟨post', by rw [hs']; simp⟩
  obtain ⟨n', hn'⟩ : ∃ n', rootOf S.root (pre' ++ [a]) = .fresh n' := by
    apply hf.fresh
    rcases rootOf_drawn S.root (pre' ++ [a]) with h | ⟨c, s, k, n, h⟩
    · rw [h]; simp
    · exact List.mem_append_right _ (List.mem_flatMap.mpr ⟨_, hp'.subset h, by simp [draws]⟩)
  rw [h3] at hsec hpre
  rw [hn'] at hsec
  have hR : n' = R := nodeTerm_root _ _ _ rfl hsec
  subst hR
  rw [hs] at hp'
  obtain ⟨h5, h6, h7⟩ := hrank e.to hK q hpre
  rcases prefix_cases hp' with h | ⟨cs, h8, h9⟩
  · exact root_before hf hs h hn'
  · rw [h8, rankOf_append, rankOf_cons] at h4
    rcases rankOf_cases _ _ _ h4 with h | ⟨r', h⟩ | h
    · simp only [rankOf] at h
      by_cases hd : y = e.to
      · rw [if_pos hd] at h
        cases h
        exact h6 (by rw [hd])
      · rw [if_neg hd] at h
        exact h5 (fun e => hd e.symm) h
    · exact h7 r' (h9.subset h)
    · exact h6 h.symm

/-- C155 after a demotion: once somebody, anybody, was demoted and `b` was sent no position since, what is sent below the new root stays
closed to `b`. Missing: a kick alone does not do this, see `C155_counterexample`. -/
theorem C155_demotion_partial {S : Story} (hf : S.Fair) {b x : Cid} {p : Path} {R ck t : Nat} {pre post : List (Act Term)}
    (ht : S.Target (· = b) x p R ck t pre post) {before after : List (Act Term)} {y : Cid} {s k : Term} {r : Cid → Nat}
    (hs : S.acts = before ++ .demote y (.fresh R) s k r :: after)
    (hb : ∀ out ∈ outs symPrims (run symPrims S.start before) (.demote y (.fresh R) s k r :: after), ∀ e ∈ out.assigns, e.to ≠ b) :
    ¬ Derives (S.Sees (· = b) R ck t) (.fresh t) := by
  refine C154_secrecy hf ht ?_
  intro out hout e he hK hsec hpre
  rw [hs, outs_append] at hout
  rcases List.mem_append.mp hout with hout | hout
  · obtain ⟨pre', a, post', hs', rfl⟩ := mem_outs hout
    obtain ⟨l, q, -, -, h3, h4⟩ := hf.emits (post := post' ++ .demote y (.fresh R) s k r :: after) (by rw [hs, hs']; simp) he
    have hp' : (pre' ++ [a]) <+: before := ⟨post', by rw [hs']; simp⟩
    obtain ⟨n', hn'⟩ : ∃ n', rootOf S.root (pre' ++ [a]) = .fresh n' := by
      apply hf.fresh
      rcases rootOf_drawn S.root (pre' ++ [a]) with h | ⟨c, s, k, n, h⟩
      · rw [h]; simp
      · refine List.mem_append_right _ (List.mem_flatMap.mpr ⟨.demote c _ s k n, ?_, List.mem_cons_self⟩)
        rw [hs]
        exact List.mem_append_left _ (hp'.subset h)
    rw [h3, hn'] at hsec
    have hR : n' = R := nodeTerm_root _ _ _ rfl hsec
    subst hR
    exact root_before hf hs hp' hn'
  · exact hb out hout e he hK

end Verif.Ranks

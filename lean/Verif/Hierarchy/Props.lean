import Verif.Hierarchy.Model
import Mathlib.Data.List.Induction
/-
C29 (who can read a hierarchy message) and C30 (derivation of node secrets).
-/
namespace Verif.Hierarchy

open Verif.Sym

theorem isAncestorOf_iff {a b : Path} : isAncestorOf a b = true ↔ a <+: b := by
  unfold isAncestorOf
  rw [Bool.and_eq_true, decide_eq_true_iff, beq_iff_eq]
  constructor
  · rintro ⟨_, h⟩; exact h ▸ List.take_prefix _ _
  · rintro ⟨c, rfl⟩; simp

variable {M : Type} (P : Prims M)

theorem deriveSecret_append (s : M) (a c : Path) : deriveSecret P s a (a ++ c) = some (c.foldl P.khash s) := by
  unfold deriveSecret
  rw [if_pos (isAncestorOf_iff.2 ⟨c, rfl⟩), List.drop_left]

/-- **C30.** Exactly ancestors (or the node itself) get a secret. -/
theorem C30_only_ancestors (s : M) (a d : Path) : (deriveSecret P s a d).isSome ↔ a <+: d := by
  unfold deriveSecret
  split
  · exact ⟨fun _ => isAncestorOf_iff.1 ‹_›, fun _ => rfl⟩
  · exact ⟨fun h => by simp at h, fun h => absurd (isAncestorOf_iff.2 h) ‹_›⟩

/-- **C30.** In one go or through any intermediate node: the same secret. -/
theorem C30_stepwise (s t : M) {a b c : Path} (hbc : b <+: c) (h : deriveSecret P s a b = some t) :
    deriveSecret P t b c = deriveSecret P s a c := by
  have hab := (C30_only_ancestors P s a b).1 (by rw [h]; rfl)
  obtain ⟨x, rfl⟩ := hab
  obtain ⟨y, rfl⟩ := hbc
  rw [deriveSecret_append, Option.some.injEq] at h
  rw [deriveSecret_append, List.append_assoc, deriveSecret_append, ← h, List.foldl_append]

/-- **C30.** Going nowhere changes nothing. -/
theorem C30_self (s : M) (a : Path) : deriveSecret P s a a = some s := by
  have := deriveSecret_append P s a []
  rwa [List.append_nil] at this

/-- The assignment a member ends up with, however many superiors passed it down: the root's for that path. -/
theorem C30_delegation (root : Member M) (chain : List Path) :
    ∀ m : Member M, (∃ s, deriveSecret P root.secret [] m.path = some s ∧ m.secret = s) →
      ∀ m', chain.foldlM (fun (x : Member M) p => x.derive P p) m = some m' →
        deriveSecret P root.secret [] m'.path = some m'.secret := by
  induction chain with
  | nil =>
    rintro m ⟨s, h1, h2⟩ m' h
    simp only [List.foldlM_nil, Option.pure_def, Option.some.injEq] at h
    rw [← h, h1, h2]
  | cons p chain ih =>
    rintro m ⟨s, h1, h2⟩ m' h
    rw [List.foldlM_cons] at h
    cases hd : m.derive P p with
    | none => rw [hd] at h; simp at h
    | some m1 =>
      rw [hd] at h
      refine ih m1 ?_ m' h
      unfold Member.derive at hd
      cases hs : deriveSecret P m.secret m.path p with
      | none => rw [hs] at hd; simp at hd
      | some s1 =>
        rw [hs, Option.map_some, Option.some.injEq] at hd
        refine ⟨s1, ?_, by rw [← hd]⟩
        rw [← hd]
        have hp := (C30_only_ancestors P m.secret m.path p).1 (by rw [hs]; rfl)
        rw [← C30_stepwise P root.secret s hp h1, ← h2, hs]

example : deriveSecret symPrims (.fresh 0) ["HQ"] ["HQ", "Bn1", "Co-A"] ≠ none ∧
    deriveSecret symPrims (.fresh 0) ["HQ", "Bn1"] ["HQ"] = none := by decide +kernel

/-! ### C29: who can read -/

/-- **C29.** A sealed assignment reaches the member it is sealed to unchanged. -/
theorem C29_assignment (hP : Lawful P) (m : Member M) (leafSecret : M) (r : Nat) :
    openAssignment P (m.sealTo P (P.leafPub leafSecret) r) leafSecret = some m := by
  unfold openAssignment Member.sealTo
  rw [hP.leafOpen_hseal, Option.bind_some, hP.dec_enc]
  rfl

theorem seal_some {m : Member M} {flat : Option M} {ck pt : M} {r : Nat} {e : Envelope M}
    (h : m.sealMessage P flat ck pt r = some e) :
    e.senderPath = m.path ∧ e.body = P.sseal ck P.nonce0 pt ∧ e.wrapHier = P.hseal (P.pub m.secret) ck r ∧
    (m.policy = .superiorOnly ∧ e.wrapFlat = none ∨
      ∃ f, m.policy = .broadcastAudit ∧ flat = some f ∧ e.wrapFlat = some (P.flatNonce ck, P.sseal f (P.flatNonce ck) ck)) := by
  unfold Member.sealMessage sealEnv at h
  cases hp : m.policy with
  | superiorOnly =>
    rw [hp] at h
    simp only [Option.some.injEq] at h
    rw [← h]
    exact ⟨rfl, rfl, rfl, .inl ⟨rfl, rfl⟩⟩
  | broadcastAudit =>
    rw [hp] at h
    cases flat with
    | none => simp at h
    | some f =>
      simp only [Option.some.injEq] at h
      rw [← h]
      exact ⟨rfl, rfl, rfl, .inr ⟨f, rfl, rfl, rfl⟩⟩

/-- **C29.** Any member of the chain of command, and the sender, reads the message, in either mode and with or without
the group's key. -/
theorem C29_superior_reads (hP : Lawful P) (root : M) (sender reader : Member M) {flat flat' : Option M} {ck pt : M} {r : Nat}
    {e : Envelope M} (hck : P.isKey ck = true)
    (hs : deriveSecret P root [] sender.path = some sender.secret) (hr : deriveSecret P root [] reader.path = some reader.secret)
    (he : sender.sealMessage P flat ck pt r = some e) (hpre : reader.path <+: sender.path) :
    reader.openMessage P flat' e = some pt := by
  obtain ⟨e1, e2, e3, -⟩ := seal_some P he
  unfold Member.openMessage openAsSuperior
  rw [e1, if_pos (isAncestorOf_iff.2 hpre), C30_stepwise P root reader.secret hpre hr, hs]
  dsimp only
  rw [e3, hP.hopen_hseal, Option.bind_some]
  unfold decryptBody
  rw [if_pos hck, e2, hP.sopen_sseal]

/-- **C29.** Nobody else gets anything out of the superior path, whatever key they hold. -/
theorem C29_not_superior (sender : Member M) {flat : Option M} {ck pt : M} {r : Nat} {e : Envelope M}
    (he : sender.sealMessage P flat ck pt r = some e) {path : Path} (secret : M) (hpre : ¬ path <+: sender.path) :
    openAsSuperior P e path secret = none := by
  obtain ⟨e1, -⟩ := seal_some P he
  unfold openAsSuperior deriveSecret
  rw [e1, if_neg (fun h => hpre (isAncestorOf_iff.1 h))]

/-- **C29.** Outside the chain of command the message opens exactly for holders of the group's key, and only if the sender
included the group. -/
theorem C29_member_reads (hP : Lawful P) (sender reader : Member M) {flat flat' : Option M} {ck pt : M} {r : Nat}
    {e : Envelope M} (hck : P.isKey ck = true) (he : sender.sealMessage P flat ck pt r = some e)
    (hpre : ¬ reader.path <+: sender.path) :
    (sender.policy = .superiorOnly → reader.openMessage P flat' e = none) ∧
    (flat' = none → reader.openMessage P flat' e = none) ∧
    (sender.policy = .broadcastAudit → flat' = flat → reader.openMessage P flat' e = some pt) := by
  obtain ⟨e1, e2, e3, e4⟩ := seal_some P he
  have h0 : reader.openMessage P flat' e = match flat' with | some f => openAsMember P e f | none => none := by
    unfold Member.openMessage
    rw [e1, if_neg (fun h => hpre (isAncestorOf_iff.1 h))]
    cases flat' <;> rfl
  rw [h0]
  refine ⟨fun hp => ?_, fun hf => by rw [hf], fun hp hf => ?_⟩
  · rcases e4 with ⟨-, e4⟩ | ⟨f, e4, -⟩
    · cases flat' with
      | none => rfl
      | some f => dsimp only; unfold openAsMember; rw [e4]
    · rw [hp] at e4; cases e4
  · rcases e4 with ⟨e4, -⟩ | ⟨f, -, e5, e6⟩
    · rw [hp] at e4; cases e4
    · rw [hf, e5]
      dsimp only
      unfold openAsMember
      rw [e6]
      dsimp only
      rw [hP.sopen_sseal, Option.bind_some]
      unfold decryptBody
      rw [if_pos hck, e2, hP.sopen_sseal]

/-! ### C29: who cannot read (symbolic) -/

theorem decPath_encPath : ∀ p : Path, decPath (encPath p) = some p
  | [] => rfl
  | s :: p => by rw [encPath, decPath, decPath_encPath p]; rfl

theorem symPrims_lawful : Lawful symPrims where
  hopen_hseal s m r := by simp [symPrims, asymOpen]
  leafOpen_hseal s m r := by simp [symPrims, asymOpen]
  sopen_sseal k n m := by simp [symPrims, symOpen]
  dec_enc p s pol := by
    cases pol <;> simp [symPrims, decMemberT, decPath_encPath, encPolicy]

/-- Node secret of a path below the root secret. -/
def nodeTerm (root : Term) (p : Path) : Term := p.foldl symPrims.khash root

theorem nodeTerm_concat (root : Term) (p : Path) (s : String) :
    nodeTerm root (p ++ [s]) = .hash (.pair (.lit "blake3-keyed") (.pair (nodeTerm root p) (.lit s))) := by
  unfold nodeTerm
  rw [List.foldl_append]
  rfl

theorem concat_cases (p : Path) : p = [] ∨ ∃ q s, p = q ++ [s] := by
  rcases List.eq_nil_or_concat p with h | ⟨q, s, h⟩
  · exact .inl h
  · exact .inr ⟨q, s, by rw [h, List.concat_eq_append]⟩

theorem nodeTerm_inj {r : Nat} : ∀ (n : Nat) (p q : Path), p.length = n → nodeTerm (.fresh r) p = nodeTerm (.fresh r) q → p = q := by
  intro n
  induction n with
  | zero =>
    intro p q hp h
    obtain rfl := List.length_eq_zero_iff.1 hp
    rcases concat_cases q with rfl | ⟨q', s, rfl⟩
    · rfl
    · rw [nodeTerm_concat] at h; exact absurd h (by simp [nodeTerm])
  | succ n ih =>
    intro p q hp h
    rcases concat_cases p with rfl | ⟨p', s, rfl⟩
    · simp at hp
    rcases concat_cases q with rfl | ⟨q', s', rfl⟩
    · rw [nodeTerm_concat] at h; exact absurd h (by simp [nodeTerm])
    rw [nodeTerm_concat, nodeTerm_concat] at h
    simp only [Term.hash.injEq, Term.pair.injEq, Term.lit.injEq, true_and] at h
    rw [ih p' q' (by simpa using hp) h.1, h.2]

/-- No fresh value of `S` occurs in the term. -/
def Clean (S : Nat → Prop) : Term → Prop
  | .fresh n => ¬ S n
  | .lit _ => True
  | .num _ => True
  | .pair a b => Clean S a ∧ Clean S b
  | .hash t => Clean S t
  | .pk s => Clean S s
  | .aenc k m _ => Clean S k ∧ Clean S m
  | .senc k n m => Clean S k ∧ Clean S n ∧ Clean S m

theorem clean_pub {S : Nat → Prop} {leak : Term → Prop} : ∀ {t : Term}, Clean S t → Pub S leak t
  | .fresh _, h => h
  | .lit _, _ => trivial
  | .num _, _ => trivial
  | .pair _ _, h => ⟨clean_pub h.1, clean_pub h.2⟩
  | .hash _, h => .inr (clean_pub h)
  | .pk _, _ => trivial
  | .aenc (.pk _) _ _, h => fun _ => clean_pub h.2
  | .aenc (.fresh _) _ _, _ => trivial
  | .aenc (.lit _) _ _, _ => trivial
  | .aenc (.num _) _ _, _ => trivial
  | .aenc (.pair _ _) _ _, _ => trivial
  | .aenc (.hash _) _ _, _ => trivial
  | .aenc (.aenc _ _ _) _ _, _ => trivial
  | .aenc (.senc _ _ _) _ _, _ => trivial
  | .senc _ _ _, h => fun _ => clean_pub h.2.2

theorem encPath_clean (S : Nat → Prop) : ∀ p : Path, Clean S (encPath p)
  | [] => trivial
  | _ :: p => ⟨trivial, encPath_clean S p⟩

/-- Another message of the group: sender, mode, content key, text, randomness. -/
structure Other where
  path : Path
  policy : Policy
  ck : Nat
  text : Term
  r : Nat

/-- An assignment on the wire: path, leaf secret it is sealed to, randomness. -/
structure Assigned where
  path : Path
  leaf : Nat
  r : Nat

/-- One message under attack: `text` was sent from `sender` under content key `ck`. The attackers hold the node secrets of
`coalition`, and the group key if `flatKnown`. -/
structure Attack where
  root : Nat
  flat : Nat
  ck : Nat
  text : Nat
  sender : Path
  policy : Policy
  r : Nat
  coalition : List Path
  flatKnown : Prop
  others : List Other
  assigned : List Assigned

/-- Nobody among them is above the sender, and if the group was included they do not hold its key. -/
def Attack.Protected (A : Attack) : Prop :=
  (∀ p ∈ A.coalition, ¬ p <+: A.sender) ∧ (A.policy = .broadcastAudit → ¬ A.flatKnown)

/-- Random values the attackers have no right to: the root secret, the content key and text of a protected message, the group
key unless they are members, the leaf secrets of members whose rank is not below one of theirs. -/
def Attack.Secret (A : Attack) (n : Nat) : Prop :=
  n = A.root ∨ ((n = A.ck ∨ n = A.text) ∧ A.Protected) ∨ (n = A.flat ∧ ¬ A.flatKnown) ∨
    ∃ a ∈ A.assigned, n = a.leaf ∧ ∀ p ∈ A.coalition, ¬ p <+: a.path

/-- Everything they see: their node secrets, the group key if they are members, the message, all other messages, all sealed
assignments, and all random values that are not secret. -/
inductive Attack.Sees (A : Attack) : Term → Prop
  | node {p t} : p ∈ A.coalition → deriveSecret symPrims (.fresh A.root) [] p = some t → Sees A t
  | flat : A.flatKnown → Sees A (.fresh A.flat)
  | wire {s e t} : deriveSecret symPrims (.fresh A.root) [] A.sender = some s →
      (Member.mk A.sender s A.policy).sealMessage symPrims (some (.fresh A.flat)) (.fresh A.ck) (.fresh A.text) A.r = some e →
      t ∈ e.wire → Sees A t
  | other {o s e t} : o ∈ A.others → deriveSecret symPrims (.fresh A.root) [] o.path = some s →
      (Member.mk o.path s o.policy).sealMessage symPrims (some (.fresh A.flat)) (.fresh o.ck) o.text o.r = some e →
      t ∈ e.wire → Sees A t
  | assigned {a m} : a ∈ A.assigned → (rootMember (.fresh A.root) A.policy).derive symPrims a.path = some m →
      Sees A (m.sealTo symPrims (symPrims.leafPub (.fresh a.leaf)) a.r)
  | own {n} : ¬ A.Secret n → Sees A (.fresh n)

/-- Hashes whose value gets known. -/
def Attack.Leak (A : Attack) (t : Term) : Prop :=
  (∃ p ∈ A.coalition, t = nodeTerm (.fresh A.root) p) ∨ ∃ ck, t = symPrims.flatNonce ck

theorem pub_node {A : Attack} : ∀ (n : Nat) (q : Path), q.length = n → Pub A.Secret A.Leak (nodeTerm (.fresh A.root) q) →
    ∃ p ∈ A.coalition, p <+: q := by
  intro n
  induction n with
  | zero =>
    intro q hq h
    obtain rfl := List.length_eq_zero_iff.1 hq
    exact absurd (.inl rfl) h
  | succ n ih =>
    intro q hq h
    rcases concat_cases q with rfl | ⟨q', s, rfl⟩
    · simp at hq
    rw [nodeTerm_concat] at h
    rcases h with (⟨p, hp, e⟩ | ⟨ck, e⟩) | ⟨-, h, -⟩
    · rw [← nodeTerm_concat] at e
      rw [nodeTerm_inj _ _ _ rfl e]
      exact ⟨p, hp, List.prefix_rfl⟩
    · simp [symPrims] at e
    · obtain ⟨p, hp, h⟩ := ih q' (by simpa using hq) h
      exact ⟨p, hp, h.trans (List.prefix_append _ _)⟩

theorem derive_root {A : Attack} {p : Path} {t : Term} (h : deriveSecret symPrims (.fresh A.root) [] p = some t) :
    t = nodeTerm (.fresh A.root) p := by
  have := deriveSecret_append symPrims (.fresh A.root) [] p
  rw [List.nil_append, h, Option.some.injEq] at this
  exact this

theorem pub_coalition {A : Attack} {p q : Path} (hp : p ∈ A.coalition) (hq : p <+: q) :
    Pub A.Secret A.Leak (nodeTerm (.fresh A.root) q) ∨ ([] : Path) ∈ A.coalition := by
  obtain ⟨c, rfl⟩ := hq
  by_cases hnil : ([] : Path) ∈ A.coalition
  · exact .inr hnil
  left
  induction c using List.reverseRecOn with
  | nil =>
    rw [List.append_nil]
    rcases concat_cases p with rfl | ⟨q, s, rfl⟩
    · exact absurd hp hnil
    · have : A.Leak (nodeTerm (.fresh A.root) (q ++ [s])) := .inl ⟨_, hp, rfl⟩
      rw [nodeTerm_concat] at this ⊢
      exact .inl this
  | append_singleton c s ih =>
    rw [← List.append_assoc, nodeTerm_concat]
    exact .inr ⟨trivial, ih, trivial⟩

theorem not_pub_seed {A : Attack} {q : Path} (h : ∀ p ∈ A.coalition, ¬ p <+: q) :
    ¬ Pub A.Secret A.Leak (seedOf (nodeTerm (.fresh A.root) q)) := by
  rintro ((⟨p, -, e⟩ | ⟨ck, e⟩) | ⟨-, h1, -⟩)
  · rcases concat_cases p with rfl | ⟨p, s, rfl⟩
    · simp [nodeTerm] at e
    · rw [nodeTerm_concat] at e; simp at e
  · simp [symPrims] at e
  · obtain ⟨p, hp, h2⟩ := pub_node _ _ rfl h1
    exact h p hp h2

theorem not_pub_leaf {A : Attack} {a : Assigned} (ha : a ∈ A.assigned) (h : ∀ p ∈ A.coalition, ¬ p <+: a.path) :
    ¬ Pub A.Secret A.Leak (leafSeedOf (.fresh a.leaf)) := by
  rintro ((⟨p, -, e⟩ | ⟨ck, e⟩) | ⟨-, h1, -⟩)
  · rcases concat_cases p with rfl | ⟨p, s, rfl⟩
    · simp [nodeTerm] at e
    · rw [nodeTerm_concat] at e; simp at e
  · simp [symPrims] at e
  · exact h1 (.inr (.inr (.inr ⟨a, ha, rfl, h⟩)))

/-- Independence of the random values: the group key, if known, and the content keys and texts of the other messages, are
none of the secrets. -/
structure Attack.Fresh (A : Attack) : Prop where
  flat : A.flatKnown → ¬ A.Secret A.flat
  others : ∀ o ∈ A.others, ¬ A.Secret o.ck ∧ Clean A.Secret o.text
  target : ¬ A.Protected → ¬ A.Secret A.ck ∧ ¬ A.Secret A.text

theorem sees_pub {A : Attack} (hf : A.Fresh) (hnil : ([] : Path) ∉ A.coalition) {t : Term} (ht : A.Sees t) :
    Pub A.Secret A.Leak t := by
  cases ht with
  | @node p t hp h =>
    rw [derive_root h]
    exact (pub_coalition hp List.prefix_rfl).resolve_right hnil
  | flat h => exact hf.flat h
  | @wire s e t hs he ht =>
    obtain ⟨e1, e2, e3, e4⟩ := seal_some symPrims he
    unfold Envelope.wire at ht
    rw [e1, e2, e3, derive_root hs] at ht
    simp only [List.cons_append, List.nil_append, List.mem_cons] at ht
    by_cases hpr : A.Protected
    · rcases ht with rfl | rfl | rfl | ht
      · exact clean_pub (encPath_clean _ _)
      · exact fun h => absurd (.inr (.inl ⟨.inl rfl, hpr⟩)) h
      · exact fun h => absurd h (not_pub_seed hpr.1)
      · rcases e4 with ⟨-, e4⟩ | ⟨f, hp, hf, e4⟩
        · rw [e4] at ht; simp at ht
        · rw [e4] at ht
          simp only [List.mem_cons, List.not_mem_nil, or_false] at ht
          rcases ht with rfl | rfl
          · exact .inl (.inr ⟨_, rfl⟩)
          · rw [Option.some.injEq] at hf
            rw [← hf]
            exact fun h => absurd (.inr (.inr (.inl ⟨rfl, hpr.2 hp⟩))) h
    · obtain ⟨h1, h2⟩ := hf.target hpr
      rcases ht with rfl | rfl | rfl | ht
      · exact clean_pub (encPath_clean _ _)
      · exact fun _ => h2
      · exact fun _ => h1
      · rcases e4 with ⟨-, e4⟩ | ⟨f, hp, hf, e4⟩
        · rw [e4] at ht; simp at ht
        · rw [e4] at ht
          simp only [List.mem_cons, List.not_mem_nil, or_false] at ht
          rcases ht with rfl | rfl
          · exact .inl (.inr ⟨_, rfl⟩)
          · exact fun _ => h1
  | @other o s e t ho hs he ht =>
    obtain ⟨h1, h2⟩ := hf.others o ho
    obtain ⟨e1, e2, e3, e4⟩ := seal_some symPrims he
    unfold Envelope.wire at ht
    rw [e1, e2, e3] at ht
    simp only [List.cons_append, List.nil_append, List.mem_cons] at ht
    rcases ht with rfl | rfl | rfl | ht
    · exact clean_pub (encPath_clean _ _)
    · exact fun _ => clean_pub h2
    · exact fun _ => h1
    · rcases e4 with ⟨-, e4⟩ | ⟨f, hp, hf, e4⟩
      · rw [e4] at ht; simp at ht
      · rw [e4] at ht
        simp only [List.mem_cons, List.not_mem_nil, or_false] at ht
        rcases ht with rfl | rfl
        · exact .inl (.inr ⟨_, rfl⟩)
        · exact fun _ => h1
  | @assigned a m ha hm =>
    unfold Member.derive at hm
    cases hs : deriveSecret symPrims (rootMember (Term.fresh A.root) A.policy).secret
        (rootMember (Term.fresh A.root) A.policy).path a.path with
    | none => rw [hs] at hm; simp at hm
    | some s =>
      rw [hs, Option.map_some, Option.some.injEq] at hm
      rw [← hm]
      intro h
      refine ⟨clean_pub (encPath_clean _ _), ?_, by cases A.policy <;> trivial⟩
      change Pub _ _ s
      rw [derive_root (A := A) hs]
      by_cases hc : ∃ p ∈ A.coalition, p <+: a.path
      · obtain ⟨p, hp, hpre⟩ := hc
        exact (pub_coalition hp hpre).resolve_right hnil
      · exact absurd h (not_pub_leaf ha (fun p hp hpre => hc ⟨p, hp, hpre⟩))
  | own h => exact h

/-- **C29.** Whoever is not an ancestor of the sender (nor the sender), alone or in any coalition with others who are not, cannot
compute the text from everything on the wire, unless they hold the group's key and the sender included the group. -/
theorem C29_secrecy (A : Attack) (hf : A.Fresh) (hco : ∀ p ∈ A.coalition, ¬ p <+: A.sender)
    (hflat : A.policy = .broadcastAudit → ¬ A.flatKnown) : ¬ Derives A.Sees (.fresh A.text) := fun hd =>
  pub_of_derives (fun _ => sees_pub hf (fun h => hco _ h List.nil_prefix)) hd (.inr (.inl ⟨.inr rfl, hco, hflat⟩))

/-- **C30.** No coalition can compute the secret of a node none of its members is an ancestor of. -/
theorem C30_one_way (A : Attack) (hf : A.Fresh) (q : Path) (hco : ∀ p ∈ A.coalition, ¬ p <+: q) {t : Term}
    (ht : deriveSecret symPrims (.fresh A.root) [] q = some t) : ¬ Derives A.Sees t := fun hd => by
  have h := pub_of_derives (fun _ => sees_pub hf (fun h => hco _ h List.nil_prefix)) hd
  rw [derive_root ht] at h
  obtain ⟨p, hp, hpre⟩ := pub_node _ _ rfl h
  exact hco p hp hpre

/-! ### The hypotheses are met, and the limits are sharp -/

/-- A sibling and a subordinate, both group members, against a report to superiors only. -/
def sampleAttack : Attack where
  root := 0
  flat := 1
  ck := 2
  text := 3
  sender := ["HQ", "Bn1"]
  policy := .superiorOnly
  r := 0
  coalition := [["HQ", "Bn2"], ["HQ", "Bn1", "Co-A"]]
  flatKnown := True
  others := [⟨["HQ"], .broadcastAudit, 4, .lit "hello", 1⟩]
  assigned := [⟨["HQ"], 10, 2⟩, ⟨["HQ", "Bn2"], 11, 3⟩]

example : sampleAttack.Fresh ∧ ∀ p ∈ sampleAttack.coalition, ¬ p <+: sampleAttack.sender := by
  refine ⟨⟨?_, ?_, ?_⟩, by decide⟩
  · intro _ h
    simp [Attack.Secret, sampleAttack] at h
  · intro o ho
    simp only [sampleAttack, List.mem_singleton] at ho
    subst ho
    exact ⟨fun h => by simp [Attack.Secret, sampleAttack] at h, trivial⟩
  · intro h
    exact absurd ⟨by decide, fun h => by simp [sampleAttack] at h⟩ h

/-- The same with the sender's superior. -/
def superiorAttack : Attack := { sampleAttack with coalition := [["HQ"]] }

/-- A superior does compute the text: the restriction on the coalition is needed. -/
example : Derives superiorAttack.Sees (.fresh 3) := by
  have hs : deriveSecret symPrims (Term.fresh 0) [] ["HQ", "Bn1"] = some (nodeTerm (.fresh 0) ["HQ", "Bn1"]) := rfl
  have hq : Derives superiorAttack.Sees (nodeTerm (.fresh 0) ["HQ"]) :=
    .ax (.node (p := ["HQ"]) (by simp [superiorAttack]) rfl)
  have hn : Derives superiorAttack.Sees (nodeTerm (.fresh 0) ["HQ", "Bn1"]) :=
    .hash (.pair (.lit _) (.pair hq (.lit _)))
  have hw : ∀ t, t ∈ [encPath ["HQ", "Bn1"], Term.senc (.fresh 2) (.num 0) (.fresh 3),
      Term.aenc (.pk (seedOf (nodeTerm (.fresh 0) ["HQ", "Bn1"]))) (.fresh 2) 0] →
      Derives superiorAttack.Sees t := fun t ht =>
    .ax (.wire (s := nodeTerm (.fresh 0) ["HQ", "Bn1"]) hs rfl ht)
  have hck := Derives.adec (hw (.aenc (.pk (seedOf (nodeTerm (.fresh 0) ["HQ", "Bn1"]))) (.fresh 2) 0) (by simp))
    (.hash (.pair (.lit _) (.pair hn (.lit _))))
  exact .sdec (hw (.senc (.fresh 2) (.num 0) (.fresh 3)) (by simp)) hck

end Verif.Hierarchy

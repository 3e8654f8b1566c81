import Verif.Serverless.Props

/-
C160 (the other end need not be the attempt whose hash was found), C161-C164: what stands in the way of a connection.
-/
namespace Verif.Serverless

variable {H : Nat → List Nat} {s t : St} {as : List Act} {a b : Nat}

/-- The phase of an attempt changes by its own steps only. -/
theorem phase_other {x : Act} {i : Nat} (hst : step H s x = some t) (h : x.who ≠ i) : t.phase i = s.phase i := by
  have hi : i ≠ x.who := fun e => h e.symm
  obtain ⟨-, htr⟩ := tr_of_step hst
  cases htr <;> first | rfl | simp only [setPhase, Act.who] at hi ⊢ <;> rw [if_neg hi]

theorem gone_other {x : Act} {i : Nat} (hst : step H s x = some t) (h : x.who ≠ i) : t.gone i = s.gone i := by
  have hi : i ≠ x.who := fun e => h e.symm
  obtain ⟨-, htr⟩ := tr_of_step hst
  cases htr <;> first | rfl | simp only [setGone, Act.who] at hi ⊢ <;> rw [if_neg hi]

/-- The steps `as`, one by one, as a function of the reached state. -/
def reach (H : Nat → List Nat) (as : List Act) : St := (run H init as).getD init

theorem run_reach (h : (run H init as).isSome) : run H init as = some (reach H as) := by
  unfold reach
  cases e : run H init as with
  | none => rw [e] at h; exact nomatch h
  | some t => rfl

/-! ### C160: the hash that was found does not say who is at the other end -/

/-- With three attempts in the room, attempt 9 takes 7 for its peer and is connected to 5, who took 7 for its peer, too. -/
theorem C160_counterexample_other : ∃ as t, run (fun i => [i]) init as = some t ∧
    t.phase 9 = .done [7] true 5 ∧ t.phase 5 = .done [7] false 9 :=
  ⟨[.greet 5, .greet 7, .greet 9, .find 5 [7], .find 9 [7], .offer 9, .answer 5, .replied 5, .apply 9, .event 5, .up 9,
    .finish 9, .finish 5], _, rfl, rfl, rfl⟩

/-! ### C161: the greeting of an attempt that ended stays -/

/-- Until somebody has deleted the room, every greeting in it stays or is replaced by one of the same name. -/
theorem C161_greetings_stay {k : List Nat} (hf : ∀ x ∈ as, ∀ i, x ≠ .finish i) (hk : k ∈ s.room.participants.keys)
    (h : run H s as = some t) : k ∈ t.room.participants.keys := by
  refine run_inv (I := fun s => k ∈ s.room.participants.keys) (P := fun x => ∀ i, x ≠ .finish i) ?_ as s t hk hf h
  intro s x t hi hp hst
  obtain ⟨-, htr⟩ := tr_of_step hst
  cases htr with
  | finish _ => exact (hp _ rfl).elim
  | @greet i _ =>
    rw [AMap.mem_keys_iff] at hi ⊢
    show (AMap.get? (s.room.participants.insert (participantKey (H i)) (H i)) k).isSome
    rw [AMap.get?_insert]
    split
    · rfl
    · exact hi
  | _ => exact hi

/-- Attempt 9 waited and gave up. -/
def ghost : List Act := [.greet 9, .timeout 9]

/-- Then 5 and 7 come, and both take 9 for their peer: they see three greetings. -/
def haunted : List Act := ghost ++ [.greet 5, .greet 7, .find 5 [9], .find 7 [9]]

/-- After an attempt that timed out in an empty room, two others can both take its greeting for that of their peer, both
take the role of the client, and then neither of them ever gets a data channel, whatever they do. -/
theorem C161_counterexample_ghost : ∃ s, run (fun i => [i]) init haunted = some s ∧
    s.gone 5 = false ∧ s.gone 7 = false ∧ side? (fun i => [i]) s 5 = some false ∧ side? (fun i => [i]) s 7 = some false ∧
    ∀ as t, Only [5, 7] as → run (fun i => [i]) s as = some t →
      link? (t.phase 5) = none ∧ link? (t.phase 7) = none := by
  refine ⟨reach _ haunted, run_reach rfl, rfl, rfl, rfl, rfl, ?_⟩
  intro as t ho h
  have hinv := run_inv (H := fun i => [i])
    (I := fun s => s.room.offer = none ∧ s.phase 5 = .found [9] ∧ s.phase 7 = .found [9])
    (P := fun x => x.who ∈ [5, 7]) ?_ as _ t ⟨rfl, rfl, rfl⟩ ho h
  · rw [hinv.2.1, hinv.2.2]
    exact ⟨rfl, rfl⟩
  intro s x t ⟨h1, h2, h3⟩ hp hst
  obtain ⟨-, htr⟩ := tr_of_step hst
  have hc : ∀ i, i ∈ [5, 7] → s.phase i = .found [9] := by
    intro i hi
    simp only [List.mem_cons, List.not_mem_nil, or_false] at hi
    rcases hi with rfl | rfl
    · exact h2
    · exact h3
  cases htr with
  | timeout _ => exact ⟨h1, h2, h3⟩
  | leave _ _ => exact ⟨h1, h2, h3⟩
  | @offer i their hq hs =>
    rw [hc i hp] at hq
    cases hq
    simp only [Act.who, List.mem_cons, List.not_mem_nil, or_false] at hp
    rcases hp with rfl | rfl
    · exact absurd hs (by decide)
    · exact absurd hs (by decide)
  | answer hq _ ho => rw [h1] at ho; exact nomatch ho
  | greet hq => exact nomatch hq.symm.trans (hc _ hp)
  | find hq _ _ _ => exact nomatch hq.symm.trans (hc _ hp)
  | apply hq _ => exact nomatch hq.symm.trans (hc _ hp)
  | replied hq => exact nomatch hq.symm.trans (hc _ hp)
  | up hq _ => exact nomatch hq.symm.trans (hc _ hp)
  | early hq _ => exact nomatch hq.symm.trans (hc _ hp)
  | event hq _ => exact nomatch hq.symm.trans (hc _ hp)
  | finish hq => exact nomatch hq.symm.trans (hc _ hp)

/-- An attempt alone in the room takes what an earlier attempt left for its peer. -/
theorem C161_counterexample_alone : ∃ t, run (fun i => [i]) init [.greet 9, .timeout 9, .greet 12, .find 12 [9]] = some t ∧
    t.phase 12 = .found [9] ∧ ∀ i, i ≠ 12 → t.phase i ≠ .idle → t.gone i = true := by
  refine ⟨reach _ _, run_reach rfl, rfl, ?_⟩
  intro i h1 h2
  by_cases e : i = 9
  · subst e; rfl
  · refine (h2 ?_).elim
    show (setPhase _ 12 _).phase i = _
    simp [setPhase, setGone, init, Room.empty, participantKey, AMap.insert, AMap.erase, h1, e]

/-! ### C162: the offer of an attempt that ended stays -/

/-- An attempt that cannot get a data channel any more, and has no deadline either: as Alpha it applied an answer to the
offer of somebody else, as Beta it answered the offer of an attempt that is gone, or the event went by unseen. -/
def Stuck (s : St) (i : Nat) : Prop :=
  s.gone i = false ∧
    ((∃ h j o, s.phase i = .applied h j o ∧ o ≠ i) ∨
      (∃ h o m, (s.phase i = .answering h o m ∨ s.phase i = .waiting h o m) ∧ (m = true ∨ s.gone o = true)))

theorem alphaUp_gone {o i : Nat} (h : s.gone o = true) : alphaUp s o i = false := by
  unfold alphaUp
  rw [h]
  rfl

/-- Nothing but giving up ends it. -/
theorem stuck_step {x : Act} {i : Nat} (h : Stuck s i) (hx : x ≠ .leave i) (hst : step H s x = some t) : Stuck t i := by
  obtain ⟨hg, h⟩ := h
  have hgone : ∀ o, s.gone o = true → t.gone o = true := by
    intro o ho
    obtain ⟨-, htr⟩ := tr_of_step hst
    cases htr <;> first | exact ho | (simp only [setGone]; split <;> simp [ho])
  by_cases e : x.who = i
  · subst e
    obtain ⟨-, htr⟩ := tr_of_step hst
    rcases h with ⟨h, j, o, hp, hne⟩ | ⟨h, o, m, hp, hm⟩
    · cases htr with
      | greet hq => exact nomatch hq.symm.trans hp
      | find hq _ _ _ => exact nomatch hq.symm.trans hp
      | offer hq _ => exact nomatch hq.symm.trans hp
      | apply hq _ => exact nomatch hq.symm.trans hp
      | answer hq _ _ => exact nomatch hq.symm.trans hp
      | replied hq => exact nomatch hq.symm.trans hp
      | early hq _ => exact nomatch hq.symm.trans hp
      | event hq _ => exact nomatch hq.symm.trans hp
      | finish hq => exact nomatch hq.symm.trans hp
      | leave _ _ => exact (hx rfl).elim
      | timeout hq =>
        rcases hq with hq | ⟨_, hq, _⟩ | ⟨_, hq⟩ <;> exact nomatch hq.symm.trans hp
      | up hq _ =>
        have := hq.symm.trans hp
        simp only [Phase.applied.injEq] at this
        exact (hne this.2.2.symm).elim
    · cases htr with
      | greet hq => rcases hp with hp | hp <;> exact nomatch hq.symm.trans hp
      | find hq _ _ _ => rcases hp with hp | hp <;> exact nomatch hq.symm.trans hp
      | offer hq _ => rcases hp with hp | hp <;> exact nomatch hq.symm.trans hp
      | apply hq _ => rcases hp with hp | hp <;> exact nomatch hq.symm.trans hp
      | answer hq _ _ => rcases hp with hp | hp <;> exact nomatch hq.symm.trans hp
      | up hq _ => rcases hp with hp | hp <;> exact nomatch hq.symm.trans hp
      | finish hq => rcases hp with hp | hp <;> exact nomatch hq.symm.trans hp
      | leave _ _ => exact (hx rfl).elim
      | timeout hq =>
        rcases hp with hp | hp <;> rcases hq with hq | ⟨_, hq, _⟩ | ⟨_, hq⟩ <;> exact nomatch hq.symm.trans hp
      | @replied i their o' m' hq =>
        rcases hp with hp | hp
        · have := hq.symm.trans hp
          simp only [Phase.answering.injEq] at this
          obtain ⟨rfl, rfl, rfl⟩ := this
          exact ⟨hg, Or.inr ⟨their, o', m', Or.inr (by simp [setPhase, Act.who]), hm⟩⟩
        · exact nomatch hq.symm.trans hp
      | early hq ha =>
        rcases hp with hp | hp
        · have := hq.symm.trans hp
          simp only [Phase.answering.injEq] at this
          obtain ⟨rfl, rfl, rfl⟩ := this
          rcases hm with hm | hm
          · exact nomatch hm
          · rw [alphaUp_gone hm] at ha; exact nomatch ha
        · exact nomatch hq.symm.trans hp
      | event hq ha =>
        rcases hp with hp | hp
        · exact nomatch hq.symm.trans hp
        · have := hq.symm.trans hp
          simp only [Phase.waiting.injEq] at this
          obtain ⟨rfl, rfl, rfl⟩ := this
          rcases hm with hm | hm
          · exact nomatch hm
          · rw [alphaUp_gone hm] at ha; exact nomatch ha
  · refine ⟨by rw [gone_other hst e]; exact hg, ?_⟩
    rw [phase_other hst e]
    rcases h with h | ⟨h, o, m, hp, hm⟩
    · exact Or.inl h
    · exact Or.inr ⟨h, o, m, hp, hm.imp id (hgone o)⟩

theorem stuck_run {i : Nat} (h : Stuck s i) (hl : ∀ x ∈ as, x ≠ .leave i) (hr : run H s as = some t) : Stuck t i :=
  run_inv (I := fun s => Stuck s i) (P := fun x => x ≠ .leave i) (fun _ _ _ hi hp hst => stuck_step hi hp hst)
    as s t h hl hr

/-- An attempt in that state has no data channel, and its call has not returned. -/
theorem stuck_link {i : Nat} (h : Stuck s i) : link? (s.phase i) = none ∧ s.gone i = false := by
  refine ⟨?_, h.1⟩
  rcases h.2 with ⟨g, j, o, hp, _⟩ | ⟨g, o, m, hp | hp, _⟩ <;> rw [hp] <;> rfl

/-- Attempts 3 and 4 found each other, 4 made its offer; then both came to their deadline. -/
def stale : List Act := [.greet 3, .greet 4, .find 3 [4], .find 4 [3], .offer 4, .timeout 4, .timeout 3]

/-- 5 and 7 come and find each other; 5 is quicker than 7 and answers the offer of 4. -/
def misled : List Act := stale ++ [.greet 5, .greet 7, .find 5 [7], .find 7 [5], .answer 5, .replied 5, .offer 7, .apply 7]

/-- After two attempts that timed out after the offer was made, the next two can find each other and take opposite roles,
and still never get a data channel, whatever happens in the room: the client answered the old offer, and the server
applied that answer. Neither call comes to a deadline, either: only giving up ends it. -/
theorem C162_counterexample_stale : ∃ s, run (fun i => [i]) init misled = some s ∧
    s.phase 5 = .waiting [7] 4 false ∧ s.phase 7 = .applied [5] 5 4 ∧
    ∀ as t, (∀ x ∈ as, x ≠ .leave 5 ∧ x ≠ .leave 7) → run (fun i => [i]) s as = some t →
      (link? (t.phase 5) = none ∧ t.gone 5 = false) ∧ (link? (t.phase 7) = none ∧ t.gone 7 = false) := by
  refine ⟨reach _ misled, run_reach rfl, rfl, rfl, ?_⟩
  intro as t hl h
  have h5 : Stuck (reach (fun i => [i]) misled) 5 := ⟨rfl, Or.inr ⟨[7], 4, false, Or.inr rfl, Or.inr rfl⟩⟩
  have h7 : Stuck (reach (fun i => [i]) misled) 7 := ⟨rfl, Or.inl ⟨[5], 5, 4, rfl, by decide⟩⟩
  exact ⟨stuck_link (stuck_run h5 (fun x hx => (hl x hx).1) h), stuck_link (stuck_run h7 (fun x hx => (hl x hx).2) h)⟩

/-! ### C163: the first pair deletes the greetings of all others -/

/-- 5 and 7 connect while 6 waits; they delete the room. Then 8 comes. -/
def third : List Act := [.greet 5, .greet 7, .greet 6, .find 5 [7], .find 7 [5], .offer 7, .answer 5, .replied 5,
  .apply 7, .event 5, .up 7, .finish 7, .finish 5, .greet 8]

/-- After a pair has connected and deleted the room, an attempt that was waiting in it and the next one that comes never
find each other, whatever the two do: the greeting of the first is gone, and each of them sees one greeting. -/
theorem C163_counterexample_third : ∃ s, run (fun i => [i]) init third = some s ∧
    s.phase 6 = .greeted ∧ s.phase 8 = .greeted ∧ s.gone 6 = false ∧ s.gone 8 = false ∧
    ∀ as t, Only [6, 8] as → run (fun i => [i]) s as = some t →
      found? (t.phase 6) = none ∧ found? (t.phase 8) = none := by
  refine ⟨reach _ third, run_reach rfl, rfl, rfl, rfl, rfl, ?_⟩
  intro as t ho h
  have hinv := run_inv (H := fun i => [i])
    (I := fun s => s.room.participants.length = 1 ∧ s.phase 6 = .greeted ∧ s.phase 8 = .greeted)
    (P := fun x => x.who ∈ [6, 8]) ?_ as _ t ⟨rfl, rfl, rfl⟩ ho h
  · rw [hinv.2.1, hinv.2.2]
    exact ⟨rfl, rfl⟩
  intro s x t ⟨h1, h2, h3⟩ hp hst
  obtain ⟨-, htr⟩ := tr_of_step hst
  have hc : ∀ i, i ∈ [6, 8] → s.phase i = .greeted := by
    intro i hi
    simp only [List.mem_cons, List.not_mem_nil, or_false] at hi
    rcases hi with rfl | rfl
    · exact h2
    · exact h3
  cases htr with
  | timeout _ => exact ⟨h1, h2, h3⟩
  | leave _ _ => exact ⟨h1, h2, h3⟩
  | find _ h0 _ _ => rw [h1] at h0; exact absurd h0 (by decide)
  | greet hq => exact nomatch hq.symm.trans (hc _ hp)
  | offer hq _ => exact nomatch hq.symm.trans (hc _ hp)
  | answer hq _ ho => exact nomatch hq.symm.trans (hc _ hp)
  | apply hq _ => exact nomatch hq.symm.trans (hc _ hp)
  | replied hq => exact nomatch hq.symm.trans (hc _ hp)
  | up hq _ => exact nomatch hq.symm.trans (hc _ hp)
  | early hq _ => exact nomatch hq.symm.trans (hc _ hp)
  | event hq _ => exact nomatch hq.symm.trans (hc _ hp)
  | finish hq => exact nomatch hq.symm.trans (hc _ hp)

/-! ### C164: the data channel can show up before anybody listens -/

/-- 5 and 7 are alone in a fresh room. The answer of 5 is stored, 7 reads and applies it, and the data channel shows up
at 5 before the reply to its request does. -/
def eager : List Act := [.greet 5, .greet 7, .find 5 [7], .find 7 [5], .offer 7, .answer 5, .apply 7, .event 5, .up 7,
  .finish 7, .replied 5]

/-- Two attempts alone in a fresh room: one call returns a connection as the server, and the other never returns, whatever
happens, unless it is given up. -/
theorem C164_counterexample_missed : ∃ s, run (fun i => [i]) init eager = some s ∧
    s.phase 7 = .done [5] true 5 ∧ s.gone 5 = false ∧
    ∀ as t, (∀ x ∈ as, x ≠ .leave 5) → run (fun i => [i]) s as = some t →
      link? (t.phase 5) = none ∧ t.gone 5 = false := by
  refine ⟨reach _ eager, run_reach rfl, rfl, rfl, ?_⟩
  intro as t hl h
  have h5 : Stuck (reach (fun i => [i]) eager) 5 := ⟨rfl, Or.inr ⟨[7], 7, true, Or.inr rfl, Or.inl rfl⟩⟩
  exact stuck_link (stuck_run h5 hl h)

/-- There is no deadline once an answer is stored or applied: an attempt ends with an error of its own accord only while
it looks for a peer, an offer or an answer. -/
theorem C164_no_deadline {i : Nat} (h : step H s (.timeout i) = some t) :
    answered (s.phase i) = none ∧ (∀ j, ¬Hooked s i j) ∧ link? (s.phase i) = none := by
  obtain ⟨-, htr⟩ := tr_of_step h
  cases htr with
  | timeout hq =>
    rcases hq with hq | ⟨g, hq, _⟩ | ⟨g, hq⟩ <;> unfold Hooked <;> rw [hq] <;> simp [answered_rules, link?]

end Verif.Serverless

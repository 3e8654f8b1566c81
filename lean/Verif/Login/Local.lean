import Verif.Login.Lemmas
/-!
Invariants of single sessions and of the accounts of nodes.
-/
namespace Verif.Login

theorem getElem?_set_cases {α : Type} {l : List α} {i j : Nat} {x y : α} (h : (l.set i x)[j]? = some y) :
    (j = i ∧ y = x) ∨ (j ≠ i ∧ l[j]? = some y) := by
  rw [List.getElem?_set] at h
  split at h
  · rename_i hij
    split at h
    · exact .inl ⟨hij.symm, (Option.some.inj h).symm⟩
    · cases h
  · rename_i hij
    exact .inr ⟨fun h' => hij h'.symm, h⟩

theorem getElem?_append_cases {α : Type} {l : List α} {j : Nat} {x y : α} (h : (l ++ [x])[j]? = some y) :
    l[j]? = some y ∨ (j = l.length ∧ y = x) := by
  rw [List.getElem?_append] at h
  split at h
  · exact .inl h
  · rename_i hj
    right
    cases hd : j - l.length with
    | zero =>
      rw [hd] at h
      simp at h
      exact ⟨by omega, h.symm⟩
    | succ n =>
      rw [hd] at h
      simp at h

theorem mem_of_mem_eraseIdx {α : Type} {l : List α} {i : Nat} {x : α} (h : x ∈ l.eraseIdx i) : x ∈ l :=
  List.mem_of_mem_eraseIdx h

def AcctOK (a : Acct) : Prop :=
  (a.static = none → a.cid = 0) ∧ ∀ r0, a.static = some r0 → r0.alice = true → r0.cid = a.cid

/-- Registration within one session. -/
structure SessLoc (P : Prims) (s : Sess) : Prop where
  r1 : s.regStage = .s1 → ∀ r, s.regRatchet = some r → r.alice = false
  r2 : ∀ r c, s.regRatchet = some r → r.alice = true → s.creds = some c → r.cid = P.cidOf c.user
  r3 : ∀ e c0 c, s.regEph = some (e, c0) → s.creds = some c → c0 = P.cidOf c.user
  p1 : ∀ own cid eph key cr t, Pend.reg1 own cid eph key cr t ∈ s.pend → ∀ c, s.creds = some c → cid = P.cidOf c.user
  p2 : ∀ r c cid t, Pend.reg2 r c cid t ∈ s.pend → r.alice = false
  p3 : ∀ r c pl, Pend.regOk r c pl ∈ s.pend → r.alice = true → r.cid = P.cidOf c.user
  cn : ∀ a, s.cnac = some a → AcctOK a ∧ a.static ≠ none

/-- A session that differs only in what these invariants do not mention, or has less. -/
theorem SessLoc.same {P : Prims} {s s' : Sess} (h : SessLoc P s) (h1 : s'.regStage = s.regStage)
    (h2 : s'.regRatchet = s.regRatchet) (h3 : s'.creds = s.creds ∨ s'.creds = none)
    (h4 : s'.regEph = s.regEph ∨ s'.regEph = none) (h5 : ∀ k ∈ s'.pend, k ∈ s.pend) (h6 : s'.cnac = s.cnac) :
    SessLoc P s' := by
  have hc : ∀ c, s'.creds = some c → s.creds = some c := by
    intro c hc
    rcases h3 with h3 | h3
    · rw [← h3]; exact hc
    · rw [h3] at hc; cases hc
  have he : ∀ x, s'.regEph = some x → s.regEph = some x := by
    intro c hc
    rcases h4 with h4 | h4
    · rw [← h4]; exact hc
    · rw [h4] at hc; cases hc
  constructor
  · rw [h1, h2]; exact h.r1
  · intro r c hr ha h'
    rw [h2] at hr
    exact h.r2 r c hr ha (hc c h')
  · intro e c0 c h' h''
    exact h.r3 e c0 c (he _ h') (hc c h'')
  · intro own cid eph key cr t hm c h'
    exact h.p1 own cid eph key cr t (h5 _ hm) c (hc c h')
  · intro r c cid t hm
    exact h.p2 r c cid t (h5 _ hm)
  · intro r c pl hm
    exact h.p3 r c pl (h5 _ hm)
  · rw [h6]; exact h.cn

theorem SessLoc.stop {P : Prims} {s : Sess} (h : SessLoc P s) : SessLoc P s.stop :=
  h.same rfl rfl (.inl rfl) (.inl rfl) (by simp [Sess.stop]) rfl

theorem SessLoc.panic {P : Prims} {s : Sess} (h : SessLoc P s) : SessLoc P s.panic :=
  h.same rfl rfl (.inl rfl) (.inl rfl) (by simp [Sess.stop, Sess.panic]) rfl

/-- A continuation that says nothing about a registration. -/
def Pend.notReg : Pend → Prop
  | .reg1 .. | .reg2 .. | .regOk .. => False
  | _ => True

theorem SessLoc.push {P : Prims} {s : Sess} (h : SessLoc P s) (k : Pend)
    (h1 : ∀ own cid eph key cr t, k = .reg1 own cid eph key cr t → ∀ c, s.creds = some c → cid = P.cidOf c.user)
    (h2 : ∀ r c cid t, k = .reg2 r c cid t → r.alice = false)
    (h3 : ∀ r c pl, k = .regOk r c pl → r.alice = true → r.cid = P.cidOf c.user) : SessLoc P (s.suspend k) := by
  have hm : ∀ x, x ∈ (s.suspend k).pend → x ∈ s.pend ∨ x = k := by
    intro x hx
    simpa [Sess.suspend] using hx
  constructor
  · exact h.r1
  · exact h.r2
  · exact h.r3
  · intro own cid eph key cr t hx
    rcases hm _ hx with hx | hx
    · exact h.p1 own cid eph key cr t hx
    · exact h1 own cid eph key cr t hx.symm
  · intro r c cid t hx
    rcases hm _ hx with hx | hx
    · exact h.p2 r c cid t hx
    · exact h2 r c cid t hx.symm
  · intro r c pl hx
    rcases hm _ hx with hx | hx
    · exact h.p3 r c pl hx
    · exact h3 r c pl hx.symm
  · exact h.cn

theorem SessLoc.pushOther {P : Prims} {s : Sess} (h : SessLoc P s) (k : Pend) (hk : k.notReg) :
    SessLoc P (s.suspend k) := by
  refine h.push k ?_ ?_ ?_
  · rintro own cid eph key cr t rfl; exact hk.elim
  · rintro r c cid t rfl; exact hk.elim
  · rintro r c pl rfl; exact hk.elim

theorem SessLoc.recv {P : Prims} {st : Store} {s : Sess} {p : Pkt} {o : Oracle} {nk ne : Nat} {r : Res}
    (h : SessLoc P s) (hr : RecvCase st s p o nk ne r) : SessLoc P r.s ∧ r.st = st := by
  cases hr with
  | drop => exact ⟨h, rfl⟩
  | stop => exact ⟨h.stop, rfl⟩
  | panicNat => exact ⟨h.panic, rfl⟩
  | panicStatic => exact ⟨h.panic, rfl⟩
  | panicFtc => exact ⟨h.panic, rfl⟩
  | reg0 => exact ⟨h.pushOther _ trivial, rfl⟩
  | reg1 eph own key cid hb he =>
    refine ⟨SessLoc.push (h.same (s' := { s with regEph := none }) rfl rfl (.inl rfl) (.inr rfl) (fun _ h => h) rfl)
      _ ?_ ?_ ?_, rfl⟩
    · intro own' cid' eph' key' cr' t' hk c hc
      cases hk
      exact h.r3 own cid c he hc
    · intro r c cid t hk; cases hk
    · intro r c pl hk; cases hk
  | reg2 r creds hb hr hs ho =>
    refine ⟨h.push _ ?_ ?_ ?_, rfl⟩
    · intro own' cid' eph' key' cr' t' hk; cases hk
    · intro r' c cid t hk; cases hk; exact h.r1 hs r hr
    · intro r' c pl hk; cases hk
  | regOk r creds tr hb hr hc ht hs ho =>
    refine ⟨h.push _ ?_ ?_ ?_, rfl⟩
    · intro own' cid' eph' key' cr' t' hk; cases hk
    · intro r' c cid t hk; cases hk
    · intro r' c pl hk ha; cases hk; exact h.r2 r creds hr ha hc
  | syn => exact ⟨h.pushOther _ trivial, rfl⟩
  | adoptTcp => exact ⟨h.same rfl rfl (.inl rfl) (.inl rfl) (fun _ h => h) rfl, rfl⟩
  | adoptQuic => exact ⟨h.same rfl rfl (.inl rfl) (.inl rfl) (fun _ h => h) rfl, rfl⟩
  | adoptUdp a r0 own key cid hb hc he hs ho hn hp =>
    exact ⟨SessLoc.pushOther (h.same (s' := { s with preEph := none, natSet := true, ratchet := some ⟨key, true, cid⟩ })
      rfl rfl (.inl rfl) (.inl rfl) (fun _ h => h) rfl) _ trivial, rfl⟩
  | punch => exact ⟨h.pushOther _ trivial, rfl⟩
  | proceed => exact ⟨h.same rfl rfl (.inl rfl) (.inl rfl) (fun _ h => h) rfl, rfl⟩
  | finalStop => exact ⟨h.same rfl rfl (.inl rfl) (.inl rfl) (by simp [Sess.stop]) rfl, rfl⟩
  | beginNone => exact ⟨h.same rfl rfl (.inl rfl) (.inl rfl) (fun _ h => h) rfl, rfl⟩
  | begin => exact ⟨h.same rfl rfl (.inr rfl) (.inl rfl) (fun _ h => h) rfl, rfl⟩
  | conn0 => exact ⟨h.pushOther _ trivial, rfl⟩
  | connFailure => exact ⟨h.same rfl rfl (.inl rfl) (.inl rfl) (by simp [Sess.stop]) rfl, rfl⟩
  | connOk => exact ⟨h.same rfl rfl (.inl rfl) (.inl rfl) (fun _ h => h) rfl, rfl⟩
  | connStop => exact ⟨h.same rfl rfl (.inl rfl) (.inl rfl) (by simp [Sess.stop]) rfl, rfl⟩
  | connLate => exact ⟨h.same rfl rfl (.inl rfl) (.inl rfl) (fun _ h => h) rfl, rfl⟩
  | ack => exact ⟨h.same rfl rfl (.inl rfl) (.inl rfl) (fun _ h => h) rfl, rfl⟩

def StoreOK (st : Store) : Prop := ∀ c a, st.get c = some a → a.cid = c ∧ AcctOK a

theorem registerImpersonal_some {P : Prims} {st st' : Store} {c : Creds} {r : Ratchet} {salt : Nat} {a : Acct}
    (h : registerImpersonal P st c r salt = some (st', a)) :
    st' = st.put a ∧ a.cid = P.cidOf c.user ∧ P.cidOf c.user ≠ 0 ∧ a.static = some r ∧ a.auth.user = c.user ∧
    st.get a.cid = none ∧ deriveServer P st.allowTransient c salt = some a.auth := by
  unfold registerImpersonal at h
  simp only at h
  split at h
  · cases h
  · rename_i h0
    cases hd : deriveServer P st.allowTransient c salt with
    | none => rw [hd] at h; cases h
    | some auth =>
      rw [hd] at h
      simp only at h
      split at h
      · split at h
        · cases h
        · rename_i hg
          simp only [Option.some.injEq, Prod.mk.injEq] at h
          obtain ⟨h1, h2⟩ := h
          subst h2
          have hu : auth.user = c.user := by
            cases c with
            | disabled u =>
              simp only [deriveServer] at hd
              split at hd
              · cases hd; rfl
              · cases hd
            | enabled u f x =>
              simp only [deriveServer, Option.some.injEq] at hd
              cases hd; rfl
          refine ⟨h1.symm, rfl, h0, rfl, hu, ?_, rfl⟩
          rw [hu] at hg
          simpa using hg
      · cases h

theorem StoreOK.put {st : Store} (h : StoreOK st) {a : Acct} (ha : AcctOK a) : StoreOK (st.put a) := by
  intro c b hb
  rw [Store.get_put] at hb
  split at hb
  · rename_i hc
    cases hb
    exact ⟨hc.symm, ha⟩
  · exact h c b hb

theorem SessLoc.resume {P : Prims} {st : Store} {s : Sess} {k : Pend} {o : Oracle} {nk ne : Nat} {r : Res} {i : Nat}
    (h : SessLoc P s) (hst : StoreOK st) (hk : s.pend[i]? = some k)
    (hr : ResumeCase P st { s with pend := s.pend.eraseIdx i } o nk ne k r) : SessLoc P r.s ∧ StoreOK r.st := by
  have hk : k ∈ s.pend := List.mem_of_getElem? hk
  have h' : SessLoc P { s with pend := s.pend.eraseIdx i } :=
    h.same rfl rfl (.inl rfl) (.inl rfl) (fun k hk => List.mem_of_mem_eraseIdx hk) rfl
  cases hr with
  | reg0 cid eph tr t hs =>
    refine ⟨⟨?_, ?_, h'.r3, h'.p1, h'.p2, h'.p3, h'.cn⟩, hst⟩
    · intro _ r hr; cases hr; rfl
    · intro r c hr ha; cases hr; cases ha
  | reg0Late => exact ⟨h', hst⟩
  | reg1 own cid key c t =>
    refine ⟨⟨?_, ?_, h'.r3, h'.p1, h'.p2, h'.p3, h'.cn⟩, hst⟩
    · intro hs; cases hs
    · intro r c' hr ha hc
      cases hr
      exact h.p1 _ _ _ _ _ _ hk c' hc
  | drop => exact ⟨h', hst⟩
  | stop => exact ⟨h'.stop, hst⟩
  | reg2 r creds cid t st' a h0 =>
    obtain ⟨h1, h2, h3, h4, _, _, _⟩ := registerImpersonal_some h0
    refine ⟨h', ?_⟩
    show StoreOK st'
    rw [h1]
    refine hst.put ⟨?_, ?_⟩
    · rw [h4]; intro hx; cases hx
    · intro r0 hr0 ha
      rw [h4] at hr0
      cases hr0
      rw [h.p2 _ _ _ _ hk] at ha
      cases ha
  | reg2Fail => exact ⟨h', hst⟩
  | regOk r creds st' a h0 =>
    obtain ⟨h1, h2, h3⟩ := registerPersonal_static h0
    have ha : AcctOK a := by
      rw [h1]
      refine ⟨(fun hx => by cases hx), ?_⟩
      intro r0 hr0 ha
      cases hr0
      exact h.p3 _ _ _ hk ha
    refine ⟨⟨h'.r1, h'.r2, h'.r3, h'.p1, h'.p2, h'.p3, ?_⟩, ?_⟩
    · intro b hb
      cases hb
      refine ⟨ha, ?_⟩
      rw [h1]
      simp
    · show StoreOK st'
      rw [h2]
      exact hst.put ha
  | regDone r creds st' a h0 =>
    obtain ⟨h1, h2, h3⟩ := registerPersonal_static h0
    have ha : AcctOK a := by
      rw [h1]
      refine ⟨(fun hx => by cases hx), ?_⟩
      intro r0 hr0 ha
      cases hr0
      exact h.p3 _ _ _ hk ha
    refine ⟨h'.stop, ?_⟩
    show StoreOK st'
    rw [h2]
    exact hst.put ha
  | synHalt => exact ⟨h'.stop, hst⟩
  | synStatic => exact ⟨h'.panic, hst⟩
  | synNat => exact ⟨h'.panic, hst⟩
  | synOk p eph udp a r0 hb hg hs ho hn =>
    refine ⟨⟨h'.r1, h'.r2, h'.r3, h'.p1, h'.p2, h'.p3, ?_⟩, hst⟩
    intro b hb
    cases hb
    refine ⟨(hst _ _ hg).2, ?_⟩
    rw [hs]
    simp
  | punchInit => exact ⟨h'.same rfl rfl (.inl rfl) (.inl rfl) (fun _ h => h) rfl, hst⟩
  | punchResp => exact ⟨h'.same rfl rfl (.inl rfl) (.inl rfl) (fun _ h => h) rfl, hst⟩
  | connPanic => exact ⟨h'.panic, hst⟩
  | connStop => exact ⟨h'.same rfl rfl (.inl rfl) (.inl rfl) (by simp [Sess.stop]) rfl, hst⟩
  | connOk r a c cid t hv hf ht =>
    exact ⟨SessLoc.pushOther (h'.same
      (s' := { s with pend := s.pend.eraseIdx i, ftcSet := true, connStage := .success })
      rfl rfl (.inl rfl) (.inl rfl) (fun _ h => h) rfl) _ trivial, hst⟩
  | connFail => exact ⟨h', hst⟩
  | connFin => exact ⟨h'.same rfl rfl (.inl rfl) (.inl rfl) (fun _ h => h) rfl, hst⟩

structure LocInv (P : Prims) (w : World) : Prop where
  sess : ∀ (sid : Nat) (s : Sess), w.sess[sid]? = some s → SessLoc P s
  store : ∀ n, StoreOK (w.store n)

theorem StoreOK.new : StoreOK Store.new := by
  intro c a h
  unfold Store.new Store.get at h
  simp only [List.find?_cons] at h
  cases hc : decide (0 = c) with
  | true =>
    rw [hc] at h
    simp only [decide_eq_true_eq] at hc
    simp only [Option.map_some, Option.some.injEq] at h
    subst h
    exact ⟨hc, fun _ => rfl, fun _ hr => by cases hr⟩
  | false => rw [hc] at h; simp at h

theorem LocInv.init (P : Prims) : LocInv P World.init :=
  ⟨by simp [World.init], fun n => StoreOK.new⟩

theorem store_apply (w : World) (sid node n : Nat) (r : Res) :
    (w.apply sid node r).store n = if n = node then r.st else w.store n :=
  store_setStore w node n r.st

theorem LocInv.step {P : Prims} {w w' : World} {ev : Ev} (h : LocInv P w) (hc : StepCase P w ev w') : LocInv P w' := by
  cases hc with
  | store _ _ h1 h2 h3 h4 h5 hst =>
    refine ⟨?_, ?_⟩
    · rw [h1]; exact h.sess
    · intro n c a ha
      exact h.store n c a (hst n c a ha)
  | steal => exact ⟨h.sess, h.store⟩
  | accept node =>
    refine ⟨?_, h.store⟩
    intro i s hs
    rcases getElem?_append_cases hs with hs | ⟨_, rfl⟩
    · exact h.sess i s hs
    · constructor <;> simp
  | login node cid pw t udp a r hg hs =>
    refine ⟨?_, h.store⟩
    intro i s hs'
    rcases getElem?_append_cases hs' with hs' | ⟨_, rfl⟩
    · exact h.sess i s hs'
    · constructor
      · simp
      · simp
      · simp
      · simp
      · simp
      · simp
      · intro b hb
        cases hb
        exact ⟨(h.store node _ _ hg).2, by rw [hs]; simp⟩
  | transient node user t udp =>
    refine ⟨?_, h.store⟩
    intro i s hs
    rcases getElem?_append_cases hs with hs | ⟨_, rfl⟩
    · exact h.sess i s hs
    · constructor
      · simp
      · simp
      · intro e c0 c he hc
        cases he
        cases hc
        rfl
      · simp
      · simp
      · simp
      · simp
  | register node full user pw t salt =>
    refine ⟨?_, h.store⟩
    intro i s hs
    rcases getElem?_append_cases hs with hs | ⟨_, rfl⟩
    · exact h.sess i s hs
    · constructor
      · simp
      · simp
      · intro e c0 c he hc
        cases he
        cases hc
        rfl
      · simp
      · simp
      · simp
      · simp
  | recv sid p o s r hs ho hp hr =>
    have := (h.sess sid s hs).recv hr
    refine ⟨?_, ?_⟩
    · intro i s' hs'
      rcases getElem?_set_cases hs' with ⟨_, rfl⟩ | ⟨_, hs'⟩
      · exact this.1
      · exact h.sess i s' hs'
    · intro n
      rw [store_apply]
      split
      · rw [this.2]; exact h.store _
      · exact h.store n
  | resume sid i o s k r hs ho hk hr =>
    have := (h.sess sid s hs).resume (h.store s.node) hk hr
    refine ⟨?_, ?_⟩
    · intro i s' hs'
      rcases getElem?_set_cases hs' with ⟨_, rfl⟩ | ⟨_, hs'⟩
      · exact this.1
      · exact h.sess i s' hs'
    · intro n
      rw [store_apply]
      split
      · exact this.2
      · exact h.store n
  | stop sid s hs =>
    refine ⟨?_, h.store⟩
    intro i s' hs'
    rcases getElem?_set_cases hs' with ⟨_, rfl⟩ | ⟨_, hs'⟩
    · exact (h.sess sid s hs).stop
    · exact h.sess i s' hs'

theorem Run.locInv {P : Prims} {evs : List Ev} {w : World} (h : Run P evs w) : LocInv P w := by
  induction h with
  | init => exact LocInv.init P
  | step _ ha ih => exact ih.step (step_cases P _ _ ha)

end Verif.Login

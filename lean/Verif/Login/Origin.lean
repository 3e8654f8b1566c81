import Verif.Login.Auth
import Verif.Login.Spec
/-!
Where credentials and the two copies of an account come from. `C sid` are the credentials session `sid` was started with.
-/
namespace Verif.Login

abbrev Start := Nat → Option Creds

def OwnReg (w : World) (sid : Nat) (e : Eph) : Prop := ∃ q t, (sid, q) ∈ w.log ∧ q.body = .regStage0 e t

def RegKey (w : World) (sid : Nat) (k : KeyId) : Prop := ∃ e, OwnReg w sid e ∧ w.EncHeard e k

/-- The two kinds of accounts: of a client, of a server. -/
def AO (P : Prims) (w : World) (C : Start) (a : Acct) : Prop :=
  ∀ r, a.static = some r →
    (r.alice = true → ∃ sid c salt, C sid = some c ∧ a.auth = intoAuthStore c salt ∧ RegKey w sid r.key) ∧
    (r.alice = false → ∃ q c al salt, w.Heard q ∧ q.body = .regStage2 c ∧ q.sealed = some ⟨r.key, true⟩ ∧
      deriveServer P al c salt = some a.auth)

structure SO (P : Prims) (w : World) (C : Start) (sid : Nat) (s : Sess) : Prop where
  creds : ∀ c, s.creds = some c → C sid = some c
  reg1 : ∀ own cid eph key cr t, Pend.reg1 own cid eph key cr t ∈ s.pend →
    OwnReg w sid own ∧ w.EncHeard eph key ∧ ∀ c, cr = some c → C sid = some c
  regOk : ∀ r c pl, Pend.regOk r c pl ∈ s.pend → C sid = some c ∧ r.alice = true ∧ RegKey w sid r.key
  reg2 : ∀ r c cid t, Pend.reg2 r c cid t ∈ s.pend →
    ∃ q, w.Heard q ∧ q.body = .regStage2 c ∧ q.sealed = some ⟨r.key, !r.alice⟩
  eph : ∀ e c, s.regEph = some (e, c) → OwnReg w sid e
  ratchet : s.regStage = .s2 → ∀ r, s.regRatchet = some r → r.alice = true ∧ RegKey w sid r.key
  cnac : ∀ a, s.cnac = some a → AO P w C a

def LO (P : Prims) (w : World) (C : Start) (sid : Nat) (p : Pkt) : Prop :=
  match p.body with
  | .regStage2 c => C sid = some c ∧ ∃ k, p.sealed = some ⟨k, true⟩ ∧ RegKey w sid k
  | .connStage0 c => C sid = some c
  | .syn _ _ => ∀ k b, p.sealed = some ⟨k, b⟩ → ∃ a r, AO P w C a ∧ a.static = some r ∧ r.key = k ∧ r.alice = b ∧
      ((∃ pw, C sid = some (connectCreds P a.auth pw)) ∨ ∃ c salt, C sid = some c ∧ a.auth = intoAuthStore c salt)
  | _ => True

structure OrigInv (P : Prims) (evs : List Ev) (w : World) (C : Start) : Prop where
  dom : ∀ sid c, C sid = some c → sid < w.sess.length
  ent : ∀ sid c, C sid = some c → Entered P evs c
  sess : ∀ (sid : Nat) (s : Sess), w.sess[sid]? = some s → SO P w C sid s
  log : ∀ sid p, (sid, p) ∈ w.log → LO P w C sid p
  store : ∀ n c a, (w.store n).get c = some a → AO P w C a

def CExt (C C' : Start) : Prop := ∀ sid c, C sid = some c → C' sid = some c

theorem CExt.refl (C : Start) : CExt C C := fun _ _ h => h

theorem OwnReg.mono {w w' : World} (he : Ext w w') {sid : Nat} {e : Eph} (h : OwnReg w sid e) : OwnReg w' sid e := by
  obtain ⟨q, t, h1, h2⟩ := h
  exact ⟨q, t, he.log _ h1, h2⟩

theorem RegKey.mono {w w' : World} (he : Ext w w') {sid : Nat} {k : KeyId} (h : RegKey w sid k) : RegKey w' sid k := by
  obtain ⟨e, h1, h2⟩ := h
  exact ⟨e, h1.mono he, he.encHeard h2⟩

theorem AO.mono {P : Prims} {w w' : World} {C C' : Start} (he : Ext w w') (hc : CExt C C') {a : Acct} (h : AO P w C a) :
    AO P w' C' a := by
  intro r hr
  obtain ⟨h1, h2⟩ := h r hr
  refine ⟨?_, ?_⟩
  · intro ha
    obtain ⟨sid, c, salt, h3, h4, h5⟩ := h1 ha
    exact ⟨sid, c, salt, hc _ _ h3, h4, h5.mono he⟩
  · intro ha
    obtain ⟨q, c, al, salt, h3, h4⟩ := h2 ha
    exact ⟨q, c, al, salt, he.heard h3, h4⟩

theorem LO.mono {P : Prims} {w w' : World} {C C' : Start} (he : Ext w w') (hc : CExt C C') {sid : Nat} {p : Pkt}
    (h : LO P w C sid p) : LO P w' C' sid p := by
  unfold LO at h ⊢
  split
  · rename_i c hb
    rw [hb] at h
    obtain ⟨h1, k, h2, h3⟩ := h
    exact ⟨hc _ _ h1, k, h2, h3.mono he⟩
  · rename_i c hb
    rw [hb] at h
    exact hc _ _ h
  · rename_i e u hb
    rw [hb] at h
    intro k b hs
    obtain ⟨a, r, h1, h2, h3, h4, h5⟩ := h k b hs
    refine ⟨a, r, h1.mono he hc, h2, h3, h4, ?_⟩
    rcases h5 with ⟨pw, h5⟩ | ⟨c, salt, h5, h6⟩
    · exact .inl ⟨pw, hc _ _ h5⟩
    · exact .inr ⟨c, salt, hc _ _ h5, h6⟩
  · trivial

/-- A session with no more than before. -/
theorem SO.same {P : Prims} {w w' : World} {C C' : Start} {sid : Nat} {s s' : Sess} (h : SO P w C sid s) (he : Ext w w')
    (hc : CExt C C') (h1 : s'.creds = s.creds ∨ s'.creds = none) (h2 : ∀ k ∈ s'.pend, k ∈ s.pend ∨ k.notReg)
    (h3 : s'.regEph = s.regEph ∨ s'.regEph = none)
    (h4 : (s'.regStage = s.regStage ∧ s'.regRatchet = s.regRatchet) ∨ s'.regStage = .s1)
    (h5 : s'.cnac = s.cnac ∨ ∀ a, s'.cnac = some a → AO P w' C' a) : SO P w' C' sid s' := by
  constructor
  · intro c hcr
    rcases h1 with h1 | h1
    · rw [h1] at hcr; exact hc _ _ (h.creds c hcr)
    · rw [h1] at hcr; cases hcr
  · intro own cid eph key cr t hm
    rcases h2 _ hm with hm | hm
    · obtain ⟨a, b, d⟩ := h.reg1 _ _ _ _ _ _ hm
      exact ⟨a.mono he, he.encHeard b, fun c h => hc _ _ (d c h)⟩
    · exact hm.elim
  · intro r c pl hm
    rcases h2 _ hm with hm | hm
    · obtain ⟨a, b, d⟩ := h.regOk _ _ _ hm
      exact ⟨hc _ _ a, b, d.mono he⟩
    · exact hm.elim
  · intro r c cid t hm
    rcases h2 _ hm with hm | hm
    · obtain ⟨q, a, b⟩ := h.reg2 _ _ _ _ hm
      exact ⟨q, he.heard a, b⟩
    · exact hm.elim
  · intro e c hre
    rcases h3 with h3 | h3
    · rw [h3] at hre; exact (h.eph e c hre).mono he
    · rw [h3] at hre; cases hre
  · intro hs r hr
    rcases h4 with ⟨h4, h5⟩ | h4
    · rw [h4] at hs
      rw [h5] at hr
      exact ⟨(h.ratchet hs r hr).1, (h.ratchet hs r hr).2.mono he⟩
    · rw [h4] at hs; cases hs
  · intro a ha
    rcases h5 with h5 | h5
    · rw [h5] at ha
      exact (h.cnac a ha).mono he hc
    · exact h5 a ha

theorem SO.stop {P : Prims} {w w' : World} {C C' : Start} {sid : Nat} {s : Sess} (h : SO P w C sid s) (he : Ext w w')
    (hc : CExt C C') : SO P w' C' sid s.stop :=
  h.same he hc (.inl rfl) (by simp [Sess.stop]) (.inl rfl) (.inl ⟨rfl, rfl⟩) (.inl rfl)

theorem SO.panic {P : Prims} {w w' : World} {C C' : Start} {sid : Nat} {s : Sess} (h : SO P w C sid s) (he : Ext w w')
    (hc : CExt C C') : SO P w' C' sid s.panic :=
  h.same he hc (.inl rfl) (by simp [Sess.stop, Sess.panic]) (.inl rfl) (.inl ⟨rfl, rfl⟩) (.inl rfl)

theorem SO.push {P : Prims} {w w' : World} {C C' : Start} {sid : Nat} {s : Sess} (h : SO P w C sid s) (he : Ext w w')
    (hc : CExt C C') (k : Pend)
    (h1 : ∀ own cid eph key cr t, k = .reg1 own cid eph key cr t →
      OwnReg w' sid own ∧ w'.EncHeard eph key ∧ ∀ c, cr = some c → C' sid = some c)
    (h2 : ∀ r c pl, k = .regOk r c pl → C' sid = some c ∧ r.alice = true ∧ RegKey w' sid r.key)
    (h3 : ∀ r c cid t, k = .reg2 r c cid t →
      ∃ q, w'.Heard q ∧ q.body = .regStage2 c ∧ q.sealed = some ⟨r.key, !r.alice⟩) : SO P w' C' sid (s.suspend k) := by
  have h' : SO P w' C' sid s := h.same he hc (.inl rfl) (fun _ h => .inl h) (.inl rfl) (.inl ⟨rfl, rfl⟩) (.inl rfl)
  have hm : ∀ x, x ∈ (s.suspend k).pend → x ∈ s.pend ∨ x = k := by
    intro x hx
    simpa [Sess.suspend] using hx
  constructor
  · exact h'.creds
  · intro own cid eph key cr t hx
    rcases hm _ hx with hx | hx
    · exact h'.reg1 _ _ _ _ _ _ hx
    · exact h1 _ _ _ _ _ _ hx.symm
  · intro r c pl hx
    rcases hm _ hx with hx | hx
    · exact h'.regOk _ _ _ hx
    · exact h2 _ _ _ hx.symm
  · intro r c cid t hx
    rcases hm _ hx with hx | hx
    · exact h'.reg2 _ _ _ _ hx
    · exact h3 _ _ _ _ hx.symm
  · exact h'.eph
  · exact h'.ratchet
  · exact h'.cnac

theorem SO.pushOther {P : Prims} {w w' : World} {C C' : Start} {sid : Nat} {s : Sess} (h : SO P w C sid s) (he : Ext w w')
    (hc : CExt C C') (k : Pend) (hk : k.notReg) : SO P w' C' sid (s.suspend k) := by
  refine h.push he hc k ?_ ?_ ?_
  · intro own cid eph key cr t hx; subst hx; exact hk.elim
  · intro r c pl hx; subst hx; exact hk.elim
  · intro r c cid t hx; subst hx; exact hk.elim

theorem SO.recv {P : Prims} {st : Store} {w w' : World} {C : Start} {sid : Nat} {s : Sess} {p : Pkt} {o : Oracle}
    {nk ne : Nat} {r : Res} (h : SO P w C sid s) (he : Ext w w') (hp : w.CanSend p) (hr : RecvCase st s p o nk ne r) :
    SO P w' C sid r.s ∧ ∀ q ∈ r.out, LO P w' C sid q := by
  have hc := CExt.refl C
  have inl : ∀ k ∈ s.pend, k ∈ s.pend ∨ k.notReg := fun _ h => .inl h
  cases hr with
  | drop => exact ⟨h.same he hc (.inl rfl) inl (.inl rfl) (.inl ⟨rfl, rfl⟩) (.inl rfl), by simp⟩
  | stop out ho =>
    refine ⟨h.stop he hc, ?_⟩
    intro q hq
    rcases ho with rfl | rfl | rfl
    · cases hq
    · simp only [List.mem_singleton] at hq; subst hq; trivial
    · simp only [List.mem_singleton] at hq; subst hq; trivial
  | panicNat => exact ⟨h.panic he hc, by simp⟩
  | panicStatic => exact ⟨h.panic he hc, by simp⟩
  | panicFtc => exact ⟨h.panic he hc, by simp⟩
  | reg0 => exact ⟨h.pushOther he hc _ trivial, by simp⟩
  | reg1 eph own key cid hb hre =>
    refine ⟨SO.push (s := { s with regEph := none })
      (h.same he hc (.inl rfl) inl (.inr rfl) (.inl ⟨rfl, rfl⟩) (.inl rfl)) (Ext.refl _) hc _ ?_ (by simp) (by simp), by simp⟩
    intro own' cid' eph' key' cr t hx
    cases hx
    exact ⟨(h.eph _ _ hre).mono he, he.encHeard (hp.encHeard (by rw [hb]; rfl)), fun c hcr => h.creds c hcr⟩
  | reg2 r creds hb hr hs ho =>
    refine ⟨h.push he hc _ (by simp) (by simp) ?_, by simp⟩
    intro r' c' cid' t' hx
    cases hx
    exact ⟨p, he.heard hp.heard, hb, by simpa [Ratchet.opens] using ho⟩
  | regOk r creds tr hb hr hcr ht hs ho =>
    refine ⟨h.push he hc _ (by simp) ?_ (by simp), by simp⟩
    intro r' c' pl hx
    cases hx
    exact ⟨h.creds _ hcr, (h.ratchet hs r hr).1, (h.ratchet hs r hr).2.mono he⟩
  | syn => exact ⟨h.pushOther he hc _ trivial, by simp⟩
  | adoptTcp =>
    exact ⟨h.same he hc (.inl rfl) inl (.inl rfl) (.inl ⟨rfl, rfl⟩) (.inl rfl), by simp [LO, Ratchet.protect]⟩
  | adoptQuic =>
    exact ⟨h.same he hc (.inl rfl) inl (.inl rfl) (.inl ⟨rfl, rfl⟩) (.inl rfl), by simp [LO, Ratchet.protect]⟩
  | adoptUdp a r0 own key cid hb hcn hpe hs ho hn hpv =>
    exact ⟨SO.pushOther (s := { s with preEph := none, natSet := true, ratchet := some ⟨key, true, cid⟩ })
      (h.same he hc (.inl rfl) inl (.inl rfl) (.inl ⟨rfl, rfl⟩) (.inl rfl)) (Ext.refl _) hc _ trivial,
      by simp [LO, Ratchet.protect]⟩
  | punch => exact ⟨h.pushOther he hc _ trivial, by simp⟩
  | proceed => exact ⟨h.same he hc (.inl rfl) inl (.inl rfl) (.inl ⟨rfl, rfl⟩) (.inl rfl), by simp [LO, Ratchet.protect]⟩
  | finalStop =>
    exact ⟨h.same he hc (.inl rfl) (by simp [Sess.stop]) (.inl rfl) (.inl ⟨rfl, rfl⟩) (.inl rfl), by simp⟩
  | beginNone => exact ⟨h.same he hc (.inl rfl) inl (.inl rfl) (.inl ⟨rfl, rfl⟩) (.inl rfl), by simp⟩
  | begin r c hb hr ho hcr hs hpv =>
    refine ⟨h.same he hc (.inr rfl) inl (.inl rfl) (.inl ⟨rfl, rfl⟩) (.inl rfl), ?_⟩
    intro q hq
    simp only [List.mem_singleton] at hq
    subst hq
    exact h.creds c hcr
  | conn0 => exact ⟨h.pushOther he hc _ trivial, by simp⟩
  | connFailure =>
    exact ⟨h.same he hc (.inl rfl) (by simp [Sess.stop]) (.inl rfl) (.inl ⟨rfl, rfl⟩) (.inl rfl), by simp⟩
  | connOk => exact ⟨h.same he hc (.inl rfl) inl (.inl rfl) (.inl ⟨rfl, rfl⟩) (.inl rfl), by simp [LO, Ratchet.protect]⟩
  | connStop =>
    exact ⟨h.same he hc (.inl rfl) (by simp [Sess.stop]) (.inl rfl) (.inl ⟨rfl, rfl⟩) (.inl rfl), by simp⟩
  | connLate => exact ⟨h.same he hc (.inl rfl) inl (.inl rfl) (.inl ⟨rfl, rfl⟩) (.inl rfl), by simp⟩
  | ack => exact ⟨h.same he hc (.inl rfl) inl (.inl rfl) (.inl ⟨rfl, rfl⟩) (.inl rfl), by simp⟩

theorem registerPersonal_some {P : Prims} {st st' : Store} {c : Creds} {r : Ratchet} {salt : Nat} {a : Acct}
    (h : registerPersonal P st c r salt = some (st', a)) :
    st' = st.put a ∧ a.static = some r ∧ a.auth = intoAuthStore c salt := by
  unfold registerPersonal at h
  simp only at h
  split at h
  · cases h
  · cases h
    exact ⟨rfl, rfl, rfl⟩

theorem SO.resume {P : Prims} {st : Store} {w w' : World} {C : Start} {sid : Nat} {s : Sess} {k : Pend} {i : Nat}
    {o : Oracle} {nk ne : Nat} {r : Res} (h : SO P w C sid s) (hl : SessLoc P s)
    (hst : ∀ c a, st.get c = some a → AO P w C a) (he : Ext w w')
    (hk : s.pend[i]? = some k) (hr : ResumeCase P st { s with pend := s.pend.eraseIdx i } o nk ne k r) :
    SO P w' C sid r.s ∧ (∀ q ∈ r.out, LO P w' C sid q) ∧ ∀ c a, r.st.get c = some a → AO P w' C a := by
  have hc := CExt.refl C
  have hk : k ∈ s.pend := List.mem_of_getElem? hk
  have er : ∀ x ∈ s.pend.eraseIdx i, x ∈ s.pend ∨ x.notReg := fun x hx => .inl (List.mem_of_mem_eraseIdx hx)
  have hst' : ∀ c a, st.get c = some a → AO P w' C a := fun c a h => (hst c a h).mono he hc
  have h' : SO P w' C sid { s with pend := s.pend.eraseIdx i } :=
    h.same he hc (.inl rfl) er (.inl rfl) (.inl ⟨rfl, rfl⟩) (.inl rfl)
  have put : ∀ a, AO P w' C a → ∀ c b, (st.put a).get c = some b → AO P w' C b := by
    intro a ha c b hb
    rw [Store.get_put] at hb
    split at hb
    · cases hb; exact ha
    · exact hst' c b hb
  cases hr with
  | reg0 =>
    exact ⟨h.same he hc (.inl rfl) er (.inl rfl) (.inr rfl) (.inl rfl), by simp [LO, plain], hst'⟩
  | reg0Late => exact ⟨h', by simp, hst'⟩
  | reg1 own cid key c t =>
    obtain ⟨h1, h2, h3⟩ := h.reg1 _ _ _ _ _ _ hk
    have hrk : RegKey w' sid key := ⟨own, h1.mono he, he.encHeard h2⟩
    refine ⟨?_, ?_, hst'⟩
    · constructor
      · exact h'.creds
      · exact h'.reg1
      · exact h'.regOk
      · exact h'.reg2
      · exact h'.eph
      · intro _ r hr
        cases hr
        exact ⟨rfl, hrk⟩
      · exact h'.cnac
    · intro q hq
      simp only [List.mem_singleton] at hq
      subst hq
      exact ⟨h3 c rfl, key, rfl, hrk⟩
  | drop => exact ⟨h', by simp, hst'⟩
  | stop => exact ⟨h'.stop (Ext.refl _) hc, by simp, hst'⟩
  | reg2 r c cid t st' a h0 =>
    obtain ⟨rfl, _, _, hs, _, _, hd⟩ := registerImpersonal_some h0
    obtain ⟨q, hq1, hq2, hq3⟩ := h.reg2 _ _ _ _ hk
    have hal := hl.p2 _ _ _ _ hk
    refine ⟨h', by simp [LO, Ratchet.protect], put a ?_⟩
    intro r' hr'
    rw [hs] at hr'
    cases hr'
    refine ⟨(fun ha => by rw [hal] at ha; cases ha), fun _ => ⟨q, c, _, _, he.heard hq1, hq2, ?_, hd⟩⟩
    rw [hq3, hal]; rfl
  | reg2Fail => exact ⟨h', by simp [LO, plain], hst'⟩
  | regOk r c st' a h0 =>
    obtain ⟨rfl, hs, hau⟩ := registerPersonal_some h0
    obtain ⟨h1, h2, h3⟩ := h.regOk _ _ _ hk
    have ha : AO P w' C a := by
      intro r' hr'
      rw [hs] at hr'
      cases hr'
      exact ⟨fun _ => ⟨sid, c, _, h1, hau, h3.mono he⟩, fun h' => by rw [h2] at h'; cases h'⟩
    refine ⟨h.same he hc (.inl rfl) er (.inl rfl) (.inl ⟨rfl, rfl⟩) (.inr ?_), ?_, put a ha⟩
    · intro b hb
      cases hb
      exact ha
    · intro q hq
      simp only [List.mem_singleton] at hq
      subst hq
      intro k b hkb
      cases hkb
      exact ⟨a, r, ha, hs, rfl, rfl, .inr ⟨c, _, h1, hau⟩⟩
  | regDone r c st' a h0 =>
    obtain ⟨rfl, hs, hau⟩ := registerPersonal_some h0
    obtain ⟨h1, h2, h3⟩ := h.regOk _ _ _ hk
    have ha : AO P w' C a := by
      intro r' hr'
      rw [hs] at hr'
      cases hr'
      exact ⟨fun _ => ⟨sid, c, _, h1, hau, h3.mono he⟩, fun h' => by rw [h2] at h'; cases h'⟩
    exact ⟨h'.stop (Ext.refl _) hc, by simp, put a ha⟩
  | synHalt => exact ⟨h'.stop (Ext.refl _) hc, by simp [LO, plain], hst'⟩
  | synStatic => exact ⟨h'.panic (Ext.refl _) hc, by simp, hst'⟩
  | synNat => exact ⟨h'.panic (Ext.refl _) hc, by simp, hst'⟩
  | synOk p eph udp a r0 hb hg hs0 ho hn =>
    refine ⟨h.same he hc (.inl rfl) er (.inl rfl) (.inl ⟨rfl, rfl⟩) (.inr ?_), by simp [LO, Ratchet.protect], hst'⟩
    intro b hb
    cases hb
    exact hst' _ _ hg
  | punchInit =>
    exact ⟨h.same he hc (.inl rfl) er (.inl rfl) (.inl ⟨rfl, rfl⟩) (.inl rfl), by simp [LO, Ratchet.protect], hst'⟩
  | punchResp => exact ⟨h.same he hc (.inl rfl) er (.inl rfl) (.inl ⟨rfl, rfl⟩) (.inl rfl), by simp, hst'⟩
  | connPanic => exact ⟨h'.panic (Ext.refl _) hc, by simp, hst'⟩
  | connStop =>
    exact ⟨h.same he hc (.inl rfl) (by simp [Sess.stop]) (.inl rfl) (.inl ⟨rfl, rfl⟩) (.inl rfl), by simp, hst'⟩
  | connOk r a c cid t hv hf ht =>
    exact ⟨SO.pushOther (s := { s with pend := s.pend.eraseIdx i, ftcSet := true, connStage := .success })
      (h.same he hc (.inl rfl) er (.inl rfl) (.inl ⟨rfl, rfl⟩) (.inl rfl)) (Ext.refl _) hc _ trivial, by simp, hst'⟩
  | connFail => exact ⟨h', by simp [LO, Ratchet.protect], hst'⟩
  | connFin =>
    exact ⟨h.same he hc (.inl rfl) er (.inl rfl) (.inl ⟨rfl, rfl⟩) (.inl rfl), by simp [LO, Ratchet.protect], hst'⟩

theorem Entered.mono {P : Prims} {evs : List Ev} {c : Creds} (h : Entered P evs c) (ev : Ev) :
    Entered P (evs ++ [ev]) c := by
  rcases h with ⟨node, cid, pw, t, udp, a, h, h'⟩ | ⟨node, full, user, pw, t, salt, h, h'⟩ | ⟨node, user, t, udp, h, h'⟩
  · exact .inl ⟨node, cid, pw, t, udp, a, List.mem_append_left _ h, h'⟩
  · exact .inr (.inl ⟨node, full, user, pw, t, salt, List.mem_append_left _ h, h'⟩)
  · exact .inr (.inr ⟨node, user, t, udp, List.mem_append_left _ h, h'⟩)

/-- Steps that only change one session. -/
theorem OrigInv.apply {P : Prims} {evs : List Ev} {w : World} {C : Start} {sid : Nat} {s : Sess} {r : Res}
    (h : OrigInv P evs w C) (ev : Ev) (hr : SO P (w.apply sid s.node r) C sid r.s)
    (hq : ∀ q ∈ r.out, LO P (w.apply sid s.node r) C sid q)
    (hst : ∀ c a, r.st.get c = some a → AO P (w.apply sid s.node r) C a) :
    OrigInv P (evs ++ [ev]) (w.apply sid s.node r) C := by
  have he := ext_apply w sid s.node r
  have hc := CExt.refl C
  constructor
  · intro i c hi
    show i < (w.sess.set sid r.s).length
    rw [List.length_set]
    exact h.dom i c hi
  · intro i c hi
    exact (h.ent i c hi).mono ev
  · intro i s' hs'
    rcases getElem?_set_cases hs' with ⟨rfl, rfl⟩ | ⟨_, hs'⟩
    · exact hr
    · exact (h.sess i s' hs').same he hc (.inl rfl) (fun _ h => .inl h) (.inl rfl) (.inl ⟨rfl, rfl⟩) (.inl rfl)
  · intro i p hp
    simp only [World.apply, List.mem_append, List.mem_map, Prod.mk.injEq] at hp
    rcases hp with hp | ⟨q, hq', rfl, rfl⟩
    · exact (h.log i p hp).mono he hc
    · exact hq q hq'
  · intro n c a hg
    rw [store_apply] at hg
    split at hg
    · exact hst c a hg
    · exact (h.store n c a hg).mono he hc

/-- Steps that start a session. -/
theorem OrigInv.new {P : Prims} {evs : List Ev} {w w' : World} {C : Start} (h : OrigInv P evs w C) (ev : Ev) (s : Sess)
    (x : Option Creds) (l : List (Nat × Pkt)) (h1 : w'.sess = w.sess ++ [s]) (h2 : w'.log = w.log ++ l)
    (h3 : w'.stores = w.stores) (he : Ext w w')
    (hx : ∀ c, x = some c → Entered P (evs ++ [ev]) c)
    (hs : ∀ C', CExt C C' → C' w.sess.length = x → SO P w' C' w.sess.length s)
    (hl : ∀ C', CExt C C' → C' w.sess.length = x → ∀ y ∈ l, LO P w' C' y.1 y.2) :
    ∃ C', OrigInv P (evs ++ [ev]) w' C' := by
  refine ⟨fun i => if i = w.sess.length then x else C i, ?_⟩
  have hc : CExt C (fun i => if i = w.sess.length then x else C i) := by
    intro i c hi
    have := h.dom i c hi
    simp only [show ¬ i = w.sess.length by omega, if_false]
    exact hi
  have hself : (fun i => if i = w.sess.length then x else C i) w.sess.length = x := by simp
  constructor
  · intro i c hi
    rw [h1]
    simp only [List.length_append, List.length_cons, List.length_nil]
    split at hi
    · omega
    · have := h.dom i c hi; omega
  · intro i c hi
    split at hi
    · exact hx c hi
    · exact (h.ent i c hi).mono ev
  · intro i s' hs'
    rw [h1] at hs'
    rcases getElem?_append_cases hs' with hs' | ⟨rfl, rfl⟩
    · exact (h.sess i s' hs').same he hc (.inl rfl) (fun _ h => .inl h) (.inl rfl) (.inl ⟨rfl, rfl⟩) (.inl rfl)
    · exact hs _ hc hself
  · intro i p hp
    rw [h2] at hp
    rcases List.mem_append.1 hp with hp | hp
    · exact (h.log i p hp).mono he hc
    · exact hl _ hc hself (i, p) hp
  · intro n c a hg
    have : w'.store n = w.store n := by simp only [World.store, h3]
    rw [this] at hg
    exact (h.store n c a hg).mono he hc

theorem OrigInv.init (P : Prims) : OrigInv P [] World.init (fun _ => none) := by
  constructor
  · simp
  · simp
  · simp [World.init]
  · simp [World.init]
  · intro n c a hg r hr
    have := (LocInv.init P).store n c a hg
    unfold World.init World.store Store.new Store.get at hg
    simp only [List.find?_nil, Option.map_none, Option.getD_none, List.find?_cons] at hg
    split at hg
    · simp only [Option.map_some, Option.some.injEq] at hg
      subst hg
      cases hr
    · simp at hg

theorem Run.origInv {P : Prims} {evs : List Ev} {w : World} (h : Run P evs w) : ∃ C, OrigInv P evs w C := by
  induction h with
  | init => exact ⟨_, OrigInv.init P⟩
  | @step evs w ev hr ha ih =>
    obtain ⟨C, ih⟩ := ih
    have hc := step_cases P _ _ ha
    have he := hc.ext
    have keep : ∀ w' : World, w'.sess = w.sess → w'.log = w.log → Ext w w' →
        (∀ n c a, (w'.store n).get c = some a → (w.store n).get c = some a) → OrigInv P (evs ++ [ev]) w' C := by
      intro w' h1 h2 he hst
      constructor
      · rw [h1]; exact ih.dom
      · intro i c hi; exact (ih.ent i c hi).mono ev
      · intro i s hs
        rw [h1] at hs
        exact (ih.sess i s hs).same he (CExt.refl C) (.inl rfl) (fun _ h => .inl h) (.inl rfl) (.inl ⟨rfl, rfl⟩) (.inl rfl)
      · intro i p hp
        rw [h2] at hp
        exact (ih.log i p hp).mono he (CExt.refl C)
      · intro n c a hg
        exact (ih.store n c a (hst n c a hg)).mono he (CExt.refl C)
    generalize hw : w.step P ev = w' at hc he
    clear hw
    cases hc with
    | store _ _ h1 h2 h3 h4 h5 hst => exact ⟨C, keep _ h1 h2 he hst⟩
    | steal n hn => exact ⟨C, keep _ rfl rfl he (fun _ _ _ h => h)⟩
    | accept node =>
      refine ih.new _ _ none [] rfl (by simp) rfl he (by simp) ?_ (by simp)
      intro C' _ _
      constructor <;> simp
    | login node cid pw t udp a r hg hs =>
      have haO := ih.store node cid a hg
      refine ih.new _ _ (some (connectCreds P a.auth pw)) [_] rfl rfl rfl he ?_ ?_ ?_
      · intro c hc
        cases hc
        exact .inl ⟨node, cid, pw, t, udp, a.auth, by simp, rfl⟩
      · intro C' hC hx
        constructor <;> simp
        · exact hx
        · exact haO.mono he hC
      · intro C' hC hx y hy
        simp only [List.mem_singleton] at hy
        subst hy
        intro k b hkb
        cases hkb
        exact ⟨a, r, haO.mono he hC, hs, rfl, rfl, .inl ⟨pw, hx⟩⟩
    | transient node user t udp =>
      refine ih.new _ _ (some (.disabled user)) [_] rfl rfl rfl he ?_ ?_ ?_
      · intro c hc
        cases hc
        exact .inr (.inr ⟨node, user, t, udp, by simp, rfl⟩)
      · intro C' hC hx
        constructor <;> simp
        · exact hx
        · exact ⟨_, _, List.mem_append_right _ (List.mem_singleton.2 rfl), rfl⟩
      · intro C' hC hx y hy
        simp only [List.mem_singleton] at hy
        subst hy
        trivial
    | register node full user pw t salt =>
      refine ih.new _ _ (some (newRegister P full user pw salt)) [_] rfl rfl rfl he ?_ ?_ ?_
      · intro c hc
        cases hc
        exact .inr (.inl ⟨node, full, user, pw, t, salt, by simp, rfl⟩)
      · intro C' hC hx
        constructor <;> simp
        · exact hx
        · exact ⟨_, _, List.mem_append_right _ (List.mem_singleton.2 rfl), rfl⟩
      · intro C' hC hx y hy
        simp only [List.mem_singleton] at hy
        subst hy
        trivial
    | recv sid p o s r hs ho hp hrc =>
      obtain ⟨h1, h2⟩ := (ih.sess sid s hs).recv he hp hrc
      refine ⟨C, ih.apply _ h1 h2 ?_⟩
      intro c a hg
      have : r.st = w.store s.node := by cases hrc <;> rfl
      rw [this] at hg
      exact (ih.store _ c a hg).mono he (CExt.refl C)
    | resume sid i o s k r hs ho hpk hrc =>
      obtain ⟨h1, h2, h3⟩ := (ih.sess sid s hs).resume (hr.locInv.sess sid s hs) (ih.store _) he hpk hrc
      exact ⟨C, ih.apply _ h1 h2 h3⟩
    | stop sid s hs =>
      refine ⟨C, ?_⟩
      constructor
      · intro i c hi
        show i < (w.sess.set sid s.stop).length
        rw [List.length_set]
        exact ih.dom i c hi
      · intro i c hi; exact (ih.ent i c hi).mono _
      · intro i s' hs'
        rcases getElem?_set_cases hs' with ⟨rfl, rfl⟩ | ⟨_, hs'⟩
        · exact (ih.sess _ s hs).stop he (CExt.refl C)
        · exact (ih.sess i s' hs').same he (CExt.refl C) (.inl rfl) (fun _ h => .inl h) (.inl rfl) (.inl ⟨rfl, rfl⟩)
            (.inl rfl)
      · intro i p hp; exact (ih.log i p hp).mono he (CExt.refl C)
      · intro n c a hg; exact (ih.store n c a hg).mono he (CExt.refl C)

/-- At most one session owns an account key that the attacker does not have. -/
theorem RegKey.unique {P : Prims} {evs : List Ev} {w : World} (h : Run P evs w) {sid sid' : Nat} {k : KeyId}
    (hn : ¬ w.Known k) (h1 : RegKey w sid k) (h2 : RegKey w sid' k) : sid = sid' := by
  have hl := h.logInv
  obtain ⟨e, ⟨q, t, hq, hqb⟩, he⟩ := h1
  obtain ⟨e', ⟨q', t', hq', hqb'⟩, he'⟩ := h2
  rcases he with he | ⟨x, p, hp, hpe⟩
  · exact absurd he hn
  rcases he' with he' | ⟨x', p', hp', hpe'⟩
  · exact absurd he' hn
  obtain ⟨_, rfl⟩ := hl.encUniq _ _ _ _ _ _ _ hp hpe hp' hpe'
  rw [hpe] at hpe'
  cases hpe'
  exact (hl.ephUniq _ _ _ _ _ hq (by rw [hqb]; rfl) hq' (by rw [hqb']; rfl)).1

end Verif.Login

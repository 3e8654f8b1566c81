import Verif.Login.Auth
import Verif.Login.Spec
/-!
A session that logs in to a registered account and to which no SYN is delivered.
-/
namespace Verif.Login

/-- The session's own request. -/
def OwnSyn (w : World) (sid : Nat) (r0 : Ratchet) (e : Eph) : Prop :=
  ∃ q u, (sid, q) ∈ w.log ∧ q.body = .syn e u ∧ q.sealed = some ⟨r0.key, r0.alice⟩ ∧ q.cid = r0.cid

def AnsHeard (w : World) (r0 : Ratchet) (e : Eph) (k : KeyId) : Prop :=
  ∃ p, p.body = .synAck e k ∧ p.sealed = some ⟨r0.key, !r0.alice⟩ ∧ w.Heard p

def LoginPend : Pend → Prop
  | .reg1 .. | .regOk .. | .synGo .. => False
  | _ => True

structure ClientInv (w : World) (sid : Nat) (s : Sess) (a : Acct) (r0 : Ratchet) : Prop where
  cnac : s.cnac = some a
  static : a.static = some r0
  reg : s.regEph = none ∧ s.regStage ≠ .s2
  pend : ∀ k ∈ s.pend, LoginPend k
  pre : ∀ e c, s.preEph = some (e, c) → c = a.cid ∧ OwnSyn w sid r0 e
  ratchet : ∀ r, s.ratchet = some r → r.alice = true ∧ r.cid = a.cid ∧ ∃ e, OwnSyn w sid r0 e ∧ AnsHeard w r0 e r.key
  chan : ∀ l, s.channel = some l → ∃ r m, s.ratchet = some r ∧ m.body = .connSuccess ∧
    m.sealed = some ⟨r.key, false⟩ ∧ w.Heard m ∧ m.cid = l

theorem OwnSyn.mono {w w' : World} {sid : Nat} {r0 : Ratchet} {e : Eph} (h : OwnSyn w sid r0 e) (he : Ext w w') :
    OwnSyn w' sid r0 e := by
  obtain ⟨q, u, h1, h2⟩ := h
  exact ⟨q, u, he.log _ h1, h2⟩

theorem AnsHeard.mono {w w' : World} {r0 : Ratchet} {e : Eph} {k : KeyId} (h : AnsHeard w r0 e k) (he : Ext w w') :
    AnsHeard w' r0 e k := by
  obtain ⟨p, h1, h2, h3⟩ := h
  exact ⟨p, h1, h2, he.heard h3⟩

theorem ClientInv.same {w w' : World} {sid : Nat} {s s' : Sess} {a : Acct} {r0 : Ratchet} (h : ClientInv w sid s a r0)
    (he : Ext w w') (h1 : s'.cnac = s.cnac) (h2 : s'.regEph = s.regEph) (h3 : s'.regStage = s.regStage ∨ s'.regStage = .s1)
    (h4 : ∀ k ∈ s'.pend, k ∈ s.pend ∨ LoginPend k) (h5 : s'.preEph = s.preEph ∨ s'.preEph = none)
    (h6 : s'.ratchet = s.ratchet) (h7 : s'.channel = s.channel) : ClientInv w' sid s' a r0 := by
  constructor
  · rw [h1]; exact h.cnac
  · exact h.static
  · rw [h2]
    refine ⟨h.reg.1, ?_⟩
    rcases h3 with h3 | h3
    · rw [h3]; exact h.reg.2
    · rw [h3]; simp
  · intro k hk
    rcases h4 k hk with h | h'
    · exact ClientInv.pend ‹_› k h
    · exact h'
  · intro e c hp
    rcases h5 with h5 | h5
    · rw [h5] at hp
      exact ⟨(h.pre e c hp).1, (h.pre e c hp).2.mono he⟩
    · rw [h5] at hp
      cases hp
  · intro r hr
    rw [h6] at hr
    obtain ⟨h1, h2, e, h3, h4⟩ := h.ratchet r hr
    exact ⟨h1, h2, e, h3.mono he, h4.mono he⟩
  · intro l hl
    rw [h7] at hl
    obtain ⟨r, m, a, b, c, d, e⟩ := h.chan l hl
    exact ⟨r, m, h6.trans a, b, c, he.heard d, e⟩

theorem ClientInv.stop {w w' : World} {sid : Nat} {s : Sess} {a : Acct} {r0 : Ratchet} (h : ClientInv w sid s a r0)
    (he : Ext w w') : ClientInv w' sid s.stop a r0 :=
  h.same he rfl rfl (.inl rfl) (by simp [Sess.stop]) (.inl rfl) rfl rfl

theorem ClientInv.panic {w w' : World} {sid : Nat} {s : Sess} {a : Acct} {r0 : Ratchet} (h : ClientInv w sid s a r0)
    (he : Ext w w') : ClientInv w' sid s.panic a r0 :=
  h.same he rfl rfl (.inl rfl) (by simp [Sess.stop, Sess.panic]) (.inl rfl) rfl rfl

theorem ClientInv.push {w w' : World} {sid : Nat} {s : Sess} {a : Acct} {r0 : Ratchet} (h : ClientInv w sid s a r0)
    (he : Ext w w') (k : Pend) (hk : LoginPend k) : ClientInv w' sid (s.suspend k) a r0 := by
  refine h.same he rfl rfl (.inl rfl) ?_ (.inl rfl) rfl rfl
  intro x hx
  simp only [Sess.suspend, List.mem_append, List.mem_singleton] at hx
  rcases hx with hx | rfl
  · exact .inl hx
  · exact .inr hk

theorem ClientInv.adopt {P : Prims} {w w' : World} {sid : Nat} {s : Sess} {a a' : Acct} {r0 r0' : Ratchet} {p : Pkt}
    {own : Eph} {key : KeyId} {cid : Cid} {ps : PreStage} (h : ClientInv w sid s a r0) (he : Ext w w') (hp : w.CanSend p)
    (hi : SessInv P w sid s) (hb : p.body = .synAck own key) (hc : s.cnac = some a') (hpe : s.preEph = some (own, cid))
    (hs : a'.static = some r0') (ho : r0'.opens p = true) (hn : s.natSet = false) :
    ClientInv w' sid { s with preEph := none, natSet := true, ratchet := some ⟨key, true, cid⟩, preStage := ps } a r0 := by
  have h1 := h.cnac
  rw [hc] at h1
  cases h1
  have h2 := h.static
  rw [hs] at h2
  cases h2
  obtain ⟨h3, h4⟩ := h.pre own cid hpe
  constructor
  · exact h.cnac
  · exact h.static
  · exact h.reg
  · exact h.pend
  · intro e c hp'; cases hp'
  · intro r hr
    cases hr
    refine ⟨rfl, h3, own, h4.mono he, p, hb, ?_, he.heard hp.heard⟩
    simpa [Ratchet.opens] using ho
  · intro l hl
    obtain ⟨r, m, ha, _⟩ := h.chan l hl
    rw [hi.nat r ha] at hn
    cases hn

theorem ClientInv.recv {P : Prims} {st : Store} {w w' : World} {sid : Nat} {s : Sess} {a : Acct} {r0 : Ratchet} {p : Pkt}
    {o : Oracle} {nk ne : Nat} {r : Res} (h : ClientInv w sid s a r0) (hi : SessInv P w sid s) (hkind : s.kind = .login)
    (he : Ext w w') (hp : w.CanSend p) (hns : ∀ e u, p.body ≠ .syn e u) (hr : RecvCase st s p o nk ne r) :
    ClientInv w' sid r.s a r0 := by
  have id' : ∀ {s' : Sess}, s'.pend = s.pend → ∀ k ∈ s'.pend, k ∈ s.pend ∨ LoginPend k := by
    intro s' h k hk
    rw [h] at hk
    exact .inl hk
  cases hr with
  | drop => exact h.same he rfl rfl (.inl rfl) (id' rfl) (.inl rfl) rfl rfl
  | stop out ho => exact h.stop he
  | panicNat => exact h.panic he
  | panicStatic => exact h.panic he
  | panicFtc => exact h.panic he
  | reg0 => exact h.push he _ trivial
  | reg1 eph own key cid hb hre => rw [h.reg.1] at hre; cases hre
  | reg2 => exact h.push he _ trivial
  | regOk r creds tr hb hr hc ht hs ho => exact absurd hs h.reg.2
  | syn eph udp hb hok => exact absurd hb (hns eph udp)
  | adoptTcp a r0 own key cid hb hc hpe hs ho hn hpv => exact h.adopt he hp hi hb hc hpe hs ho hn
  | adoptQuic a r0 own key cid hb hc hpe hs ho hn hpv => exact h.adopt he hp hi hb hc hpe hs ho hn
  | adoptUdp a r0 own key cid hb hc hpe hs ho hn hpv =>
    exact (h.adopt (ps := s.preStage) he hp hi hb hc hpe hs ho hn).push (Ext.refl _) _ trivial
  | punch => exact h.push he _ trivial
  | proceed r u ps hr ho => exact h.same he rfl rfl (.inl rfl) (id' rfl) (.inl rfl) rfl rfl
  | finalStop u ps => exact h.same he rfl rfl (.inl rfl) (by simp [Sess.stop]) (.inl rfl) rfl rfl
  | beginNone => exact h.same he rfl rfl (.inl rfl) (id' rfl) (.inl rfl) rfl rfl
  | begin r c hb hr ho hc hs hpv => exact h.same he rfl rfl (.inl rfl) (id' rfl) (.inl rfl) rfl rfl
  | conn0 r a c hb hr ha ho hs hpv => exact h.push he _ trivial
  | connFailure => exact h.same he rfl rfl (.inl rfl) (by simp [Sess.stop]) (.inl rfl) rfl rfl
  | connOk r a hb hr ha ho hf hs hok hpv =>
    have h1 : ClientInv w' sid s _ _ := h.same he rfl rfl (.inl rfl) (id' rfl) (.inl rfl) rfl rfl
    constructor
    · exact h1.cnac
    · exact h1.static
    · exact h1.reg
    · exact h1.pend
    · exact h1.pre
    · exact h1.ratchet
    · intro l hl
      cases hl
      refine ⟨r, p, hr, hb, ?_, he.heard hp.heard, rfl⟩
      have := (h.ratchet r hr).1
      simpa [Ratchet.opens, this] using ho
  | connStop r hb hr hf hs => exact h.same he rfl rfl (.inl rfl) (by simp [Sess.stop]) (.inl rfl) rfl rfl
  | connLate => exact h.same he rfl rfl (.inl rfl) (id' rfl) (.inl rfl) rfl rfl
  | ack hb hk => rw [hkind] at hk; cases hk

theorem ClientInv.resume {P : Prims} {st : Store} {w w' : World} {sid : Nat} {s : Sess} {a : Acct} {r0 : Ratchet}
    {k : Pend} {i : Nat} {o : Oracle} {nk ne : Nat} {r : Res} (h : ClientInv w sid s a r0) (he : Ext w w')
    (hk : s.pend[i]? = some k) (hr : ResumeCase P st { s with pend := s.pend.eraseIdx i } o nk ne k r) :
    ClientInv w' sid r.s a r0 := by
  have hk : k ∈ s.pend := List.mem_of_getElem? hk
  have hp := h.pend k hk
  have er : ∀ x ∈ s.pend.eraseIdx i, x ∈ s.pend ∨ LoginPend x := fun x hx => .inl (List.mem_of_mem_eraseIdx hx)
  have h' : ClientInv w' sid { s with pend := s.pend.eraseIdx i } a r0 :=
    h.same he rfl rfl (.inl rfl) er (.inl rfl) rfl rfl
  cases hr with
  | reg0 => exact h.same he rfl rfl (.inr rfl) er (.inl rfl) rfl rfl
  | reg0Late => exact h'
  | reg1 => exact hp.elim
  | drop => exact h'
  | stop => exact h'.stop (Ext.refl _)
  | reg2 => exact h'
  | reg2Fail => exact h'
  | regOk => exact hp.elim
  | regDone => exact hp.elim
  | synHalt => exact hp.elim
  | synStatic => exact hp.elim
  | synNat => exact hp.elim
  | synOk => exact hp.elim
  | punchInit => exact h.same he rfl rfl (.inl rfl) er (.inl rfl) rfl rfl
  | punchResp => exact h.same he rfl rfl (.inl rfl) er (.inl rfl) rfl rfl
  | connPanic => exact h'.panic (Ext.refl _)
  | connStop => exact h.same he rfl rfl (.inl rfl) (by simp [Sess.stop]) (.inl rfl) rfl rfl
  | connOk r a c cid t hv hf ht =>
    exact ClientInv.push (s := { s with pend := s.pend.eraseIdx i, ftcSet := true, connStage := .success })
      (h.same he rfl rfl (.inl rfl) er (.inl rfl) rfl rfl) (Ext.refl _) _ trivial
  | connFail => exact h'
  | connFin => exact h.same he rfl rfl (.inl rfl) er (.inl rfl) rfl rfl

theorem NoSyn.prefix {evs : List Ev} {ev : Ev} {sid : Nat} (h : NoSyn (evs ++ [ev]) sid) : NoSyn evs sid :=
  fun p o hm => h p o (List.mem_append_left _ hm)

theorem Run.clientInv {P : Prims} {evs : List Ev} {w : World} (h : Run P evs w) :
    ∀ (sid : Nat) (s : Sess), w.sess[sid]? = some s → s.kind = .login → NoSyn evs sid → ∃ a r0, ClientInv w sid s a r0 := by
  induction h with
  | init => intro sid s hs; simp [World.init] at hs
  | @step evs w ev hr ha ih =>
    intro sid s hs hk hn
    have hc := step_cases P _ _ ha
    have he := hc.ext
    have old : ∀ s : Sess, w.sess[sid]? = some s → s.kind = .login →
        ∃ a r0, ClientInv (w.step P ev) sid s a r0 := by
      intro s hs hk
      obtain ⟨a, r0, h⟩ := ih sid s hs hk hn.prefix
      exact ⟨a, r0, h.same he rfl rfl (.inl rfl) (fun _ h => .inl h) (.inl rfl) rfl rfl⟩
    generalize hw : w.step P ev = w' at hs hc he old
    clear hw
    cases hc with
    | store _ _ h1 h2 h3 h4 h5 hst =>
      rw [h1] at hs
      exact old s hs hk
    | steal n hn => exact old s hs hk
    | accept node =>
      rcases getElem?_append_cases hs with hs | ⟨rfl, rfl⟩
      · exact old s hs hk
      · cases hk
    | login node cid pw t udp a r hg hs' =>
      rcases getElem?_append_cases hs with hs | ⟨rfl, rfl⟩
      · exact old s hs hk
      · refine ⟨a, r, rfl, hs', ⟨rfl, by simp⟩, by simp, ?_, by simp, by simp⟩
        intro e c hp
        cases hp
        exact ⟨rfl, _, _, List.mem_append_right _ (List.mem_singleton.2 rfl), rfl, rfl, rfl⟩
    | transient node user t udp =>
      rcases getElem?_append_cases hs with hs | ⟨rfl, rfl⟩
      · exact old s hs hk
      · cases hk
    | register node full user pw t salt =>
      rcases getElem?_append_cases hs with hs | ⟨rfl, rfl⟩
      · exact old s hs hk
      · cases hk
    | recv sid' p o s0 r hs0 ho hp hrc =>
      rcases getElem?_set_cases hs with ⟨rfl, rfl⟩ | ⟨_, hs⟩
      · have hi := hr.authInv.sess _ _ hs0
        have hk0 : s0.kind = .login := by
          rw [← (recv_ok hi he hp hrc).stable.kind]; exact hk
        obtain ⟨a, r0, h⟩ := ih _ s0 hs0 hk0 hn.prefix
        exact ⟨a, r0, h.recv hi hk0 he hp (hn p o (by simp)) hrc⟩
      · exact old s hs hk
    | resume sid' i o s0 k r hs0 ho hpk hrc =>
      rcases getElem?_set_cases hs with ⟨rfl, rfl⟩ | ⟨_, hs⟩
      · have hi := hr.authInv.sess _ _ hs0
        have hk0 : s0.kind = .login := by
          rw [← (resume_ok hi (hr.locInv.sess _ _ hs0) (hr.locInv.store _) he hpk hrc
            (fun q hq => List.mem_append_right _ (List.mem_map.2 ⟨q, hq, rfl⟩))).stable.kind]
          exact hk
        obtain ⟨a, r0, h⟩ := ih _ s0 hs0 hk0 hn.prefix
        exact ⟨a, r0, h.resume he hpk hrc⟩
      · exact old s hs hk
    | stop sid' s0 hs0 =>
      rcases getElem?_set_cases hs with ⟨rfl, rfl⟩ | ⟨_, hs⟩
      · obtain ⟨a, r0, h⟩ := ih _ s0 hs0 hk hn.prefix
        exact ⟨a, r0, h.stop he⟩
      · exact old s hs hk

end Verif.Login

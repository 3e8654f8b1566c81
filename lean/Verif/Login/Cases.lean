import Verif.Login.Model
/-!
The branches of the handlers, each with the conditions under which it is taken.
-/
namespace Verif.Login

/-- What the arrival of a packet can do. -/
inductive RecvCase (st : Store) (s : Sess) (p : Pkt) (o : Oracle) (nk ne : Nat) : Res → Prop
  | drop : RecvCase st s p o nk ne ⟨st, s, [], nk, ne, []⟩
  | stop (out : List Pkt) (h : out = [] ∨ out = [plain p.cid p.ticket .halt] ∨ out = [plain p.cid p.ticket .regFailure]) :
      RecvCase st s p o nk ne ⟨st, s.stop, out, nk, ne, []⟩
  | panicNat (e : Eph) (k : KeyId) (hb : p.body = .synAck e k) (hn : s.natSet = true) :
      RecvCase st s p o nk ne ⟨st, s.panic, [], nk, ne, []⟩
  | panicStatic (a : Acct) (e : Eph) (k : KeyId) (hb : p.body = .synAck e k) (hc : s.cnac = some a)
      (hs : a.static = none) : RecvCase st s p o nk ne ⟨st, s.panic, [], nk, ne, []⟩
  | panicFtc (hb : p.body = .connSuccess) (hf : s.ftcSet = true) :
      RecvCase st s p o nk ne ⟨st, s.panic, [], nk, ne, []⟩
  | reg0 (eph : Eph) (tr : Bool) (hb : p.body = .regStage0 eph tr) :
      RecvCase st s p o nk ne ⟨st, s.suspend (.reg0 p.cid eph tr p.ticket), [], nk, ne, []⟩
  | reg1 (eph own : Eph) (key : KeyId) (cid : Cid) (hb : p.body = .regStage1 eph key)
      (he : s.regEph = some (own, cid)) :
      RecvCase st s p o nk ne
        ⟨st, { s with regEph := none }.suspend (.reg1 own cid eph key s.creds p.ticket), [], nk, ne, []⟩
  | reg2 (r : Ratchet) (creds : Creds) (hb : p.body = .regStage2 creds) (hr : s.regRatchet = some r)
      (hs : s.regStage = .s1) (ho : r.opens p = true) :
      RecvCase st s p o nk ne ⟨st, s.suspend (.reg2 r creds p.cid p.ticket), [], nk, ne, []⟩
  | regOk (r : Ratchet) (creds : Creds) (tr : Bool) (hb : p.body = .regSuccess) (hr : s.regRatchet = some r)
      (hc : s.creds = some creds) (ht : s.transientMode = some tr) (hs : s.regStage = .s2) (ho : r.opens p = true) :
      RecvCase st s p o nk ne ⟨st, s.suspend (.regOk r creds tr), [], nk, ne, []⟩
  | syn (eph : Eph) (udp : Bool) (hb : p.body = .syn eph udp) (hok : o.ok = true) :
      RecvCase st s p o nk ne ⟨st, s.suspend (.synGo p), [], nk, ne, []⟩
  | adoptTcp (a : Acct) (r0 : Ratchet) (own : Eph) (key : KeyId) (cid : Cid) (hb : p.body = .synAck own key)
      (hc : s.cnac = some a) (he : s.preEph = some (own, cid)) (hs : a.static = some r0) (ho : r0.opens p = true)
      (hn : s.natSet = false) (hp : s.provisional = true) :
      RecvCase st s p o nk ne
        ⟨st, { s with preEph := none, natSet := true, ratchet := some ⟨key, true, cid⟩, preStage := .success },
          [Ratchet.protect ⟨key, true, cid⟩ cid p.ticket .preStage0], nk, ne, []⟩
  | adoptQuic (a : Acct) (r0 : Ratchet) (own : Eph) (key : KeyId) (cid : Cid) (hb : p.body = .synAck own key)
      (hc : s.cnac = some a) (he : s.preEph = some (own, cid)) (hs : a.static = some r0) (ho : r0.opens p = true)
      (hn : s.natSet = false) (hp : s.provisional = true) :
      RecvCase st s p o nk ne
        ⟨st, { s with preEph := none, natSet := true, ratchet := some ⟨key, true, cid⟩, preStage := .success },
          [Ratchet.protect ⟨key, true, cid⟩ cid p.ticket (.preFinal true false)], nk, ne, []⟩
  | adoptUdp (a : Acct) (r0 : Ratchet) (own : Eph) (key : KeyId) (cid : Cid) (hb : p.body = .synAck own key)
      (hc : s.cnac = some a) (he : s.preEph = some (own, cid)) (hs : a.static = some r0) (ho : r0.opens p = true)
      (hn : s.natSet = false) (hp : s.provisional = true) :
      RecvCase st s p o nk ne
        ⟨st, { s with preEph := none, natSet := true, ratchet := some ⟨key, true, cid⟩ }.suspend
            (.punchInit ⟨key, true, cid⟩ p.ticket),
          [Ratchet.protect ⟨key, true, cid⟩ cid p.ticket .preStage0], nk, ne, []⟩
  | punch (hb : p.body = .preStage0) : RecvCase st s p o nk ne ⟨st, s.suspend .punchResp, [], nk, ne, []⟩
  | proceed (r : Ratchet) (u : Bool) (ps : PreStage) (hr : s.ratchet = some r) (ho : r.opens p = true) :
      RecvCase st s p o nk ne ⟨st, { s with preOk := true, udp := u, preStage := ps },
        [r.protect r.cid p.ticket .beginConnect], nk, ne, []⟩
  | finalStop (u : Bool) (ps : PreStage) :
      RecvCase st s p o nk ne ⟨st, { s with preOk := true, udp := u, preStage := ps }.stop, [], nk, ne, []⟩
  | beginNone : RecvCase st s p o nk ne ⟨st, { s with preOk := true }, [], nk, ne, []⟩
  | begin (r : Ratchet) (c : Creds) (hb : p.body = .beginConnect) (hr : s.ratchet = some r) (ho : r.opens p = true)
      (hc : s.creds = some c) (hs : s.preStage = .success) (hp : s.provisional = true) :
      RecvCase st s p o nk ne
        ⟨st, { s with preOk := true, creds := none, connStage := .s1, state := .connectionProcess },
          [r.protect r.cid p.ticket (.connStage0 c)], nk, ne, []⟩
  | conn0 (r : Ratchet) (a : Acct) (c : Creds) (hb : p.body = .connStage0 c) (hr : s.ratchet = some r)
      (ha : s.cnac = some a) (ho : r.opens p = true) (hs : s.connStage ≠ .success) (hp : s.provisional = true) :
      RecvCase st s p o nk ne ⟨st, s.suspend (.conn0 r a c p.cid p.ticket), [], nk, ne, []⟩
  | connFailure (r : Ratchet) (hb : p.body = .connFailure) (hr : s.ratchet = some r) (ho : r.opens p = true) :
      RecvCase st s p o nk ne ⟨st, { s with cid := none }.stop, [], nk, ne, []⟩
  | connOk (r : Ratchet) (a : Acct) (hb : p.body = .connSuccess) (hr : s.ratchet = some r) (ha : s.cnac = some a)
      (ho : r.opens p = true) (hf : s.ftcSet = false) (hs : s.connStage = .s1) (hok : o.ok = true)
      (hp : s.provisional = true) :
      RecvCase st s p o nk ne
        ⟨st, { s with ftcSet := true, connStage := .success, cid := some r.cid, state := .connected,
                      channel := some p.cid },
          [r.protect r.cid p.ticket .connSuccessAck], nk, ne, []⟩
  | connStop (r : Ratchet) (hb : p.body = .connSuccess) (hr : s.ratchet = some r) (hf : s.ftcSet = false)
      (hs : s.connStage = .s1) :
      RecvCase st s p o nk ne
        ⟨st, { s with ftcSet := true, connStage := .success, cid := some r.cid }.stop, [], nk, ne, []⟩
  | connLate (hb : p.body = .connSuccess) (hf : s.ftcSet = false) :
      RecvCase st s p o nk ne ⟨st, { s with ftcSet := true }, [], nk, ne, []⟩
  | ack (hb : p.body = .connSuccessAck) (hk : s.kind = .server) :
      RecvCase st s p o nk ne ⟨st, { s with channel := s.signal, signal := none }, [], nk, ne, []⟩

theorem recv_cases (st : Store) (s : Sess) (p : Pkt) (o : Oracle) (nk ne : Nat) :
    RecvCase st s p o nk ne (recv st s p o nk ne) := by
  unfold recv
  cases hb : p.body with
  | regStage0 e t =>
    simp only [recvRegister, hb]
    split
    · exact .drop
    · split
      · exact .stop _ (.inr (.inr rfl))
      · exact .reg0 e t hb
  | regStage1 e k =>
    simp only [recvRegister, hb]
    split
    · exact .drop
    · cases he : s.regEph with
      | none => exact .drop
      | some oc => exact .reg1 e oc.1 k oc.2 hb he
  | regStage2 c =>
    simp only [recvRegister, hb]
    split
    · exact .drop
    · cases hr : s.regRatchet with
      | none => exact .drop
      | some r =>
        simp only
        split
        · rename_i h
          exact .reg2 r c hb hr h.1 h.2
        · exact .drop
  | regSuccess =>
    simp only [recvRegister, hb]
    split
    · exact .drop
    · split
      · rename_i r c tr hr hc ht
        split
        · rename_i h
          exact .regOk r c tr hb hr hc ht h.1 h.2
        · exact .drop
      · exact .drop
  | regFailure =>
    simp only [recvRegister, hb]
    split
    · exact .drop
    · split
      · exact .drop
      · exact .stop _ (.inl rfl)
  | syn e u =>
    simp only [recvPreconnect, hb]
    split
    · exact .drop
    · split
      · rename_i h
        exact .syn e u hb h
      · exact .stop _ (.inr (.inl rfl))
  | synAck e k =>
    simp only [recvPreconnect, hb]
    split
    · exact .drop
    · rename_i hp
      split
      · exact .drop
      · rename_i a hc
        split
        · exact .drop
        · split
          · exact .drop
          · rename_i own cid he
            split
            · rename_i hs
              exact .panicStatic a e k hb hc hs
            · rename_i r0 hs
              split
              · rename_i ho
                obtain ⟨ho, rfl⟩ := ho
                split
                · rename_i hn
                  exact .panicNat _ k hb hn
                · rename_i hn
                  have hn : s.natSet = false := by simpa using hn
                  have hp : s.provisional = true := by simpa using hp
                  split
                  · exact .adoptTcp a r0 _ k cid hb hc he hs ho hn hp
                  · split
                    · exact .adoptQuic a r0 _ k cid hb hc he hs ho hn hp
                    · exact .adoptUdp a r0 _ k cid hb hc he hs ho hn hp
              · exact .stop _ (.inr (.inl rfl))
  | preStage0 =>
    simp only [recvPreconnect, hb]
    split
    · exact .drop
    · split
      · exact .drop
      · rename_i r hr
        split
        · exact .drop
        · split
          · rename_i ho
            split
            · have := RecvCase.proceed (st := st) (o := o) (nk := nk) (ne := ne) r s.udp s.preStage hr ho
              exact this
            · exact .punch hb
          · exact .stop _ (.inr (.inl rfl))
  | preFinal success tcpOnly =>
    simp only [recvPreconnect, hb]
    split
    · exact .drop
    · split
      · rename_i r a hr ha
        split
        · rename_i ho
          split
          · exact .proceed r _ s.preStage hr ho
          · split
            · cases hu : (s.udp && success && o.quic) with
              | true => simp only [if_true]; exact .proceed r _ .success hr ho
              | false =>
                simp only [Bool.false_eq_true, if_false]
                exact .proceed r _ s.preStage hr ho
            · cases hu : (s.udp && success && o.quic) with
              | true => simp only [if_true]; exact .finalStop _ .success
              | false =>
                simp only [Bool.false_eq_true, if_false]
                exact .finalStop _ s.preStage
        · exact .drop
      · exact .drop
  | beginConnect =>
    simp only [recvPreconnect, hb]
    split
    · exact .drop
    · rename_i hp
      split
      · exact .drop
      · rename_i r hr
        split
        · rename_i h
          split
          · exact .beginNone
          · rename_i c hc
            have hp : s.provisional = true := by simpa using hp
            exact .begin r c hb hr h.2 hc h.1 hp
        · exact .drop
  | halt =>
    simp only [recvPreconnect, hb]
    split
    · exact .drop
    · exact .stop _ (.inl rfl)
  | connStage0 c =>
    simp only [recvConnect, hb]
    split
    · exact .drop
    · rename_i hp
      split
      · exact .drop
      · split
        · rename_i r a hr ha
          split
          · exact .drop
          · rename_i ho
            split
            · exact .drop
            · rename_i hs
              have ho : r.opens p = true := by simpa using ho
              refine .conn0 r a c hb hr ha ho hs ?_
              simp only [Bool.and_eq_true, Bool.not_eq_true', decide_eq_true_eq, not_and] at hp
              cases hv : s.provisional with
              | true => rfl
              | false => exact absurd hs (hp hv)
        · exact .drop
  | connSuccess =>
    simp only [recvConnect, hb]
    split
    · exact .drop
    · rename_i hp
      split
      · exact .drop
      · split
        · rename_i r a hr ha
          split
          · exact .drop
          · rename_i ho
            have ho : r.opens p = true := by simpa using ho
            split
            · rename_i hf
              exact .panicFtc hb hf
            · rename_i hf
              have hf : s.ftcSet = false := by simpa using hf
              split
              · rename_i hs
                split
                · rename_i hok
                  refine .connOk r a hb hr ha ho hf hs hok ?_
                  simp only [Bool.and_eq_true, Bool.not_eq_true', decide_eq_true_eq, not_and] at hp
                  cases hv : s.provisional with
                  | true => rfl
                  | false =>
                    have := hp hv
                    simp [hs] at this
                · exact .connStop r hb hr hf hs
              · exact .connLate hb hf
        · exact .drop
  | connFailure =>
    simp only [recvConnect, hb]
    split
    · exact .drop
    · split
      · exact .drop
      · split
        · rename_i r a hr ha
          split
          · exact .drop
          · rename_i ho
            have ho : r.opens p = true := by simpa using ho
            exact .connFailure r hb hr ho
        · exact .drop
  | connSuccessAck =>
    simp only [recvConnect, hb]
    split
    · exact .drop
    · split
      · exact .drop
      · split
        · split
          · exact .drop
          · split
            · rename_i h
              exact .ack hb h.1
            · exact .stop _ (.inl rfl)
        · exact .drop

/-- What going on with a continuation can do. -/
inductive ResumeCase (P : Prims) (st : Store) (s : Sess) (o : Oracle) (nk ne : Nat) : Pend → Res → Prop
  | reg0 (cid : Cid) (eph : Eph) (tr : Bool) (t : Nat) (hs : s.regStage = .s0) :
      ResumeCase P st s o nk ne (.reg0 cid eph tr t)
        ⟨st, { s with transientMode := some tr, regRatchet := some ⟨.dev nk, false, cid⟩, regStage := .s1 },
          [plain cid t (.regStage1 eph (.dev nk))], nk + 1, ne, [(eph, .dev nk)]⟩
  | reg0Late (cid : Cid) (eph : Eph) (tr : Bool) (t : Nat) :
      ResumeCase P st s o nk ne (.reg0 cid eph tr t) ⟨st, s, [], nk + 1, ne, [(eph, .dev nk)]⟩
  | reg1 (own : Eph) (cid : Cid) (key : KeyId) (c : Creds) (t : Nat) :
      ResumeCase P st s o nk ne (.reg1 own cid own key (some c) t)
        ⟨st, { s with regRatchet := some ⟨key, true, cid⟩, regStage := .s2 },
          [Ratchet.protect ⟨key, true, cid⟩ cid t (.regStage2 c)], nk, ne, []⟩
  | drop (k : Pend) : ResumeCase P st s o nk ne k ⟨st, s, [], nk, ne, []⟩
  | stop (k : Pend) : ResumeCase P st s o nk ne k ⟨st, s.stop, [], nk, ne, []⟩
  | reg2 (r : Ratchet) (creds : Creds) (cid t : Nat) (st' : Store) (a : Acct)
      (h : registerImpersonal P st creds r o.salt = some (st', a)) :
      ResumeCase P st s o nk ne (.reg2 r creds cid t) ⟨st', s, [r.protect r.cid t .regSuccess], nk, ne, []⟩
  | reg2Fail (r : Ratchet) (creds : Creds) (cid t : Nat) (h : registerImpersonal P st creds r o.salt = none) :
      ResumeCase P st s o nk ne (.reg2 r creds cid t) ⟨st, s, [plain cid t .regFailure], nk, ne, []⟩
  | regOk (r : Ratchet) (creds : Creds) (st' : Store) (a : Acct)
      (h : registerPersonal P st creds r s.salt = some (st', a)) :
      ResumeCase P st s o nk ne (.regOk r creds true)
        ⟨st', { s with state := .needsConnect, preStage := .synAck, preEph := some (.hon ne, a.cid), cnac := some a },
          [r.protect r.cid s.ticket (.syn (.hon ne) s.udp)], nk, ne + 1, []⟩
  | regDone (r : Ratchet) (creds : Creds) (st' : Store) (a : Acct)
      (h : registerPersonal P st creds r s.salt = some (st', a)) :
      ResumeCase P st s o nk ne (.regOk r creds false) ⟨st', s.stop, [], nk, ne, []⟩
  | synHalt (p : Pkt) : ResumeCase P st s o nk ne (.synGo p) ⟨st, s.stop, [plain p.cid p.ticket .halt], nk, ne, []⟩
  | synStatic (p : Pkt) (eph : Eph) (udp : Bool) (a : Acct) (hb : p.body = .syn eph udp) (hg : st.get p.cid = some a)
      (hs : a.static = none) : ResumeCase P st s o nk ne (.synGo p) ⟨st, s.panic, [], nk, ne, []⟩
  | synNat (p : Pkt) (eph : Eph) (udp : Bool) (hb : p.body = .syn eph udp) (hn : s.natSet = true) :
      ResumeCase P st s o nk ne (.synGo p) ⟨st, s.panic, [], nk + 1, ne, [(eph, .sess nk)]⟩
  | synOk (p : Pkt) (eph : Eph) (udp : Bool) (a : Acct) (r0 : Ratchet) (hb : p.body = .syn eph udp)
      (hg : st.get p.cid = some a) (hs : a.static = some r0) (ho : r0.opens p = true) (hn : s.natSet = false) :
      ResumeCase P st s o nk ne (.synGo p)
        ⟨st, { s with natSet := true, ticket := p.ticket, ratchet := some ⟨.sess nk, false, p.cid⟩,
                      preStage := .synAck, udp := udp, cnac := some a, cid := some p.cid },
          [r0.protect r0.cid p.ticket (.synAck eph (.sess nk))], nk + 1, ne, [(eph, .sess nk)]⟩
  | punchInit (r : Ratchet) (t : Nat) :
      ResumeCase P st s o nk ne (.punchInit r t)
        ⟨st, { s with preStage := .success }, [r.protect r.cid t (.preFinal true (!o.ok))], nk, ne, []⟩
  | punchResp :
      ResumeCase P st s o nk ne .punchResp ⟨st, { s with preStage := .success, udp := s.udp && o.ok }, [], nk, ne, []⟩
  | connPanic (r : Ratchet) (a : Acct) (c : Creds) (cid t : Nat) (hf : s.ftcSet = true) :
      ResumeCase P st s o nk ne (.conn0 r a c cid t) ⟨st, s.panic, [], nk, ne, []⟩
  | connStop (r : Ratchet) (a : Acct) (c : Creds) (cid t : Nat) (cs : ConnStage) (hf : s.ftcSet = false)
      (hc : cs = s.connStage ∨ cs = .success) :
      ResumeCase P st s o nk ne (.conn0 r a c cid t)
        ⟨st, { s with ftcSet := true, connStage := cs }.stop, [], nk, ne, []⟩
  | connOk (r : Ratchet) (a : Acct) (c : Creds) (cid t : Nat) (hv : validate P a.auth c = true) (hf : s.ftcSet = false)
      (ht : s.ticket = t) :
      ResumeCase P st s o nk ne (.conn0 r a c cid t)
        ⟨st, { s with ftcSet := true, connStage := .success }.suspend (.connFin r cid t), [], nk, ne, []⟩
  | connFail (r : Ratchet) (a : Acct) (c : Creds) (cid t : Nat) (hv : validate P a.auth c = false) :
      ResumeCase P st s o nk ne (.conn0 r a c cid t) ⟨st, s, [r.protect r.cid t .connFailure], nk, ne, []⟩
  | connFin (r : Ratchet) (label t : Nat) :
      ResumeCase P st s o nk ne (.connFin r label t)
        ⟨st, { s with cid := some r.cid, state := .connected, signal := some label },
          [r.protect r.cid t .connSuccess], nk, ne, []⟩

theorem registerPersonal_static {P : Prims} {st st' : Store} {c : Creds} {r : Ratchet} {salt : Nat} {a : Acct}
    (h : registerPersonal P st c r salt = some (st', a)) :
    a = ⟨P.cidOf c.user, intoAuthStore c salt, some r⟩ ∧ st' = st.put a ∧ P.cidOf c.user ≠ 0 := by
  unfold registerPersonal at h
  simp only at h
  split at h
  · cases h
  · rename_i h0
    simp only [Option.some.injEq, Prod.mk.injEq] at h
    obtain ⟨h1, h2⟩ := h
    subst h2
    exact ⟨rfl, h1.symm, h0⟩

theorem resume_cases (P : Prims) (st : Store) (s : Sess) (k : Pend) (o : Oracle) (nk ne : Nat) :
    ResumeCase P st s o nk ne k (resume P st s k o nk ne) := by
  cases k with
  | reg0 cid eph tr t =>
    simp only [resume]
    split
    · rename_i h
      exact .reg0 cid eph tr t h
    · exact .reg0Late cid eph tr t
  | reg1 own cid eph key creds t =>
    simp only [resume]
    split
    · rename_i h
      subst h
      cases creds with
      | none => exact .drop _
      | some c => exact .reg1 _ cid key c t
    · exact .stop _
  | reg2 r creds cid t =>
    simp only [resume]
    cases h : registerImpersonal P st creds r o.salt with
    | none => exact .reg2Fail r creds cid t h
    | some x => exact .reg2 r creds cid t x.1 x.2 h
  | regOk r creds pl =>
    simp only [resume]
    cases h : registerPersonal P st creds r s.salt with
    | none => exact .stop _
    | some x =>
      obtain ⟨st', a⟩ := x
      simp only
      split
      · rename_i hpl
        subst hpl
        have ha := (registerPersonal_static h).1
        have hs : a.static = some r := by rw [ha]
        simp only [beginConnect, hs]
        exact .regOk r creds st' a h
      · rename_i hpl
        have hpl : pl = false := by simpa using hpl
        subst hpl
        exact .regDone r creds st' a h
  | synGo p =>
    simp only [resume]
    split
    · rename_i eph udp hb
      cases hg : st.get p.cid with
      | none => exact .synHalt p
      | some a =>
        simp only
        cases hs : a.static with
        | none => exact .synStatic p eph udp a hb hg hs
        | some r0 =>
          simp only
          split
          · rename_i ho
            split
            · rename_i hn
              exact .synNat p eph udp hb hn
            · rename_i hn
              have hn : s.natSet = false := by simpa using hn
              exact .synOk p eph udp a r0 hb hg hs ho hn
          · exact .synHalt p
    · exact .drop _
  | punchInit r t => exact .punchInit r t
  | punchResp => exact .punchResp
  | conn0 r a c cid t =>
    simp only [resume]
    split
    · rename_i hv
      split
      · rename_i hf
        exact .connPanic r a c cid t hf
      · rename_i hf
        have hf : s.ftcSet = false := by simpa using hf
        split
        · exact .connStop r a c cid t s.connStage hf (.inl rfl)
        · rename_i ht
          have ht : s.ticket = t := Decidable.byContradiction ht
          split
          · exact .connOk r a c cid t hv hf ht
          · exact .connStop r a c cid t .success hf (.inr rfl)
    · rename_i hv
      have hv : validate P a.auth c = false := by simpa using hv
      exact .connFail r a c cid t hv
  | connFin r label t =>
    simp only [resume]
    split
    · exact .connFin r label t
    · exact .stop _

end Verif.Login

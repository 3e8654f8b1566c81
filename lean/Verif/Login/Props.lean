import Verif.Login.Origin
import Verif.Login.Client
import Verif.Login.Panic
/-!
Properties of registration and login.
-/
namespace Verif.Login

/-! ### Who is at the other end -/

/-- A session key that a node made for an ephemeral key of a node is not known to the attacker. -/
theorem sessKey_secret {P : Prims} {evs : List Ev} {w : World} (h : Run P evs w) {sv : Nat} {p : Pkt} {n : Nat} {k : KeyId}
    (hp : (sv, p) ∈ w.log) (hb : p.body = .synAck (.hon n) k) {m : Nat} (hk : k = .sess m) : ¬ w.Known k := by
  intro hkn
  have hl := h.logInv
  subst hk
  rcases hl.leak _ hkn with ⟨n', _, h'⟩ | ⟨n', _, h', h''⟩
  · cases h'
  · obtain ⟨m', hm⟩ := h'' sv p (.hon n) hp (by rw [hb]; rfl)
    cases hm

/-- Credentials under a session key that the answering session `sv` made for the request `e` of session `cl` come from
`cl`. -/
theorem presenter {P : Prims} {evs : List Ev} {w : World} (h : Run P evs w) {cl sv : Nat} {q p m : Pkt} {e : Eph} {u : Bool}
    {k : KeyId} {n : Nat} {c : Creds} (hq : (cl, q) ∈ w.log) (hqb : q.body = .syn e u) (hp : (sv, p) ∈ w.log)
    (hpb : p.body = .synAck e k) (hk : k = .sess n) (hm : w.Heard m) (hmb : m.body = .connStage0 c)
    (hms : m.sealed = some ⟨k, true⟩) : (cl, m) ∈ w.log := by
  have hl := h.logInv
  have ha := h.authInv
  obtain ⟨n0, _, he⟩ := hl.ephHon cl q e hq (by rw [hqb]; rfl)
  have hsec : ¬ w.Known k := by
    refine sessKey_secret h hp ?_ hk (n := n0)
    rw [hpb, he]
  rcases hm with ⟨cl', hm⟩ | hm
  · obtain ⟨s', hs', hsent⟩ := ha.sent cl' m hm
    unfold SentOK at hsent
    rw [hmb] at hsent
    obtain ⟨r', hr', hseal, hcid⟩ := hsent
    rw [hms] at hseal
    cases r' with
    | mk rk ra rc =>
      simp only [Option.some.injEq, Seal.mk.injEq] at hseal
      obtain ⟨rfl, rfl⟩ := hseal
      obtain ⟨_, e', hpre, henc⟩ := (ha.sess cl' s' hs').ali _ _ hr'
      rcases henc with hk' | ⟨sid2, q2, hq2, hq2b⟩
      · exact absurd hk' hsec
      · obtain ⟨_, rfl⟩ := hl.encUniq _ _ _ _ _ _ _ hp (by rw [hpb]; rfl) hq2 hq2b
        rw [hpb] at hq2b
        cases hq2b
        obtain ⟨q3, u3, hq3, hq3b, _⟩ := hpre
        obtain ⟨rfl, _⟩ := hl.ephUniq _ _ _ _ _ hq (by rw [hqb]; rfl) hq3 (by rw [hq3b]; rfl)
        exact hm
  · exact absurd (hm _ hms) hsec

/-- C100: a server session that is connected, to an account whose long-term key the attacker does not have, is connected to
a client: some session asked for this login under that key, got this session's key, and presented the credentials that
were accepted. No other server session accepted that client session. -/
theorem C100_client_authenticated (P : Prims) (evs : List Ev) (w : World) (h : Run P evs w) (sv : Nat) (s : Sess) (a : Acct)
    (r0 : Ratchet) (hs : w.sess[sv]? = some s) (hk : s.kind = .server) (hc : s.state = .connected) (hu : Under s a r0)
    (hn : ¬ w.Known r0.key) :
    s.cid = some a.cid ∧ ∃ cl, Accepted P w cl sv a r0 ∧
      ∀ sv' a' r0', Accepted P w cl sv' a' r0' → sv' = sv := by
  have hl := h.logInv
  have ha := h.authInv
  obtain ⟨r, l, hr, hcid, a1, c, m, hval, hmb, hms, hml, hmh, hcn⟩ := (ha.sess sv s hs).conn hk hc
  have ha1 : a1 = a := by
    have := hcn hk
    rw [hu.1] at this
    cases this; rfl
  subst ha1
  cases r with
  | mk k al rc =>
    cases al with
    | true => exact absurd hk ((ha.sess sv s hs).ali k rc hr).1
    | false =>
      obtain ⟨p, r1, e, q, u, n, hp, hpb, hkn, hps, hqb, hqs, hqc, hqh, hsrv⟩ := (ha.sess sv s hs).bob k rc hr
      obtain ⟨a2, h1, h2, h3⟩ := hsrv hk
      rw [hu.1] at h1
      cases h1
      rw [hu.2] at h2
      cases h2
      subst h3
      rcases hqh with ⟨cl, hq⟩ | hqh
      · have hmc := presenter h hq hqb hp hpb hkn hmh hmb hms
        refine ⟨hcid, cl, ⟨e, k, c, ⟨u, q, p, hq, hqb, hqs, hqc, hp, hpb, hps⟩, ⟨m, hmc, hmb, hms⟩, hval⟩, ?_⟩
        rintro sv' a' r0' ⟨e', k', c', ⟨u', q', p', _, _, _, _, hp', hpb', _⟩, ⟨m', hm', hmb', hms'⟩, _⟩
        obtain ⟨s1, hs1, hsent1⟩ := ha.sent cl m hmc
        obtain ⟨s2, hs2, hsent2⟩ := ha.sent cl m' hm'
        rw [hs1] at hs2
        cases hs2
        unfold SentOK at hsent1 hsent2
        rw [hmb] at hsent1
        rw [hmb'] at hsent2
        obtain ⟨r1, hr1, e1, _⟩ := hsent1
        obtain ⟨r2, hr2, e2, _⟩ := hsent2
        rw [hr1] at hr2
        cases hr2
        rw [hms] at e1
        rw [hms', ← e1] at e2
        cases e2
        exact (hl.encUniq _ _ _ _ _ _ _ hp' (by rw [hpb']; rfl) hp (by rw [hpb]; rfl)).1
      · exact absurd (hqh _ hqs) hn

/-- C99, partial: a server session that is connected to an account with a password, whose long-term key the attacker does
not have, was shown the password: a session presented credentials whose hash, hashed again with the salt of the account,
is the stored one, and these credentials are made from what a user entered.
Missing: the same when the attacker has the long-term key of the account (`C99_counterexample_disabled_credentials`). -/
theorem C99_password_needed_partial (P : Prims) (evs : List Ev) (w : World) (h : Run P evs w) (sv : Nat) (s : Sess)
    (a : Acct) (r0 : Ratchet) (hs : w.sess[sv]? = some s) (hk : s.kind = .server) (hc : s.state = .connected)
    (hu : Under s a r0) (hn : ¬ w.Known r0.key) (user full : Name) (salt hash : Nat)
    (ha : a.auth = .server user full salt hash) :
    ∃ cl k f g, Presented w cl k (.enabled user f g) ∧ P.argon salt user g = hash ∧ Entered P evs (.enabled user f g) := by
  obtain ⟨_, cl, ⟨e, k, c, ⟨u, q, p, hq, hqb, hqs, _⟩, hpr, hval⟩, _⟩ := C100_client_authenticated P evs w h sv s a r0 hs hk hc hu hn
  obtain ⟨C, ho⟩ := h.origInv
  obtain ⟨hao1, hao2⟩ := (ho.sess sv s hs).cnac a hu.1 r0 hu.2
  have hal : r0.alice = false := by
    cases hr : r0.alice with
    | false => rfl
    | true =>
      obtain ⟨_, c', _, _, h2, _⟩ := hao1 hr
      rw [ha] at h2
      cases c' <;> cases h2
  obtain ⟨q2, c2, al, salt2, hq2, hq2b, hq2s, hd⟩ := hao2 hal
  rcases hq2 with ⟨s2, hq2⟩ | hq2
  · have hl2 := ho.log s2 q2 hq2
    unfold LO at hl2
    rw [hq2b] at hl2
    obtain ⟨hC2, k2, hk2, hrk2⟩ := hl2
    rw [hq2s] at hk2
    cases hk2
    have hl1 := ho.log cl q hq
    unfold LO at hl1
    rw [hqb] at hl1
    obtain ⟨a1, r1, hao, hst, hrk, hra, hcl⟩ := hl1 _ _ hqs
    rw [hal] at hra
    obtain ⟨s1, c1, salt1, hC1, hau1, hrk1⟩ := (hao r1 hst).1 hra
    rw [hrk] at hrk1
    have := RegKey.unique h hn hrk1 hrk2
    subst this
    rw [hC1] at hC2
    cases hC2
    obtain ⟨m, hm, hmb, hms⟩ := hpr
    have hl3 := ho.log cl m hm
    unfold LO at hl3
    rw [hmb] at hl3
    have hl3 : C cl = some c := hl3
    have hcen : ∃ u' f' g', c = .enabled u' f' g' := by
      cases c2 with
      | disabled u1 =>
        simp only [deriveServer, ha] at hd
        split at hd <;> cases hd
      | enabled u1 f1 g1 =>
        rcases hcl with ⟨pw, hcl⟩ | ⟨c', salt', hcl, hcl'⟩
        · rw [hl3] at hcl
          cases hcl
          rw [hau1]
          exact ⟨_, _, _, rfl⟩
        · rw [hl3] at hcl
          cases hcl
          rw [hau1] at hcl'
          cases c with
          | disabled u' => cases hcl'
          | enabled u' f' g' => exact ⟨_, _, _, rfl⟩
    obtain ⟨u', f', g', rfl⟩ := hcen
    rw [ha] at hval
    simp only [validate, validateArgon] at hval
    split at hval
    · cases hval
    · rename_i hu'
      have hu' : u' = user := by simpa [Creds.user, Auth.user] using hu'
      subst hu'
      exact ⟨cl, k, f', g', ⟨m, hm, hmb, hms⟩, of_decide_eq_true hval, ho.ent cl _ hl3⟩
  · exact absurd (hq2 _ hq2s) hn

/-- What a login session to which no SYN was delivered knows about the owner of its session key. -/
theorem partner {P : Prims} {evs : List Ev} {w : World} (h : Run P evs w) {cl : Nat} {s : Sess} {a : Acct} {r0 : Ratchet}
    {r : Ratchet} (hs : w.sess[cl]? = some s) (hk : s.kind = .login) (hns : NoSyn evs cl) (hu : Under s a r0)
    (hn : ¬ w.Known r0.key) (hr : s.ratchet = some r) :
    ∃ sv e k, r = ⟨k, true, a.cid⟩ ∧ ¬ w.Known k ∧ (∃ m, k = .sess m) ∧
      Handshake w cl sv ⟨r0.key, !r0.alice, r0.cid⟩ e k r0.cid := by
  obtain ⟨a', r0', hi⟩ := h.clientInv cl s hs hk hns
  have h1 := hi.cnac
  rw [hu.1] at h1
  cases h1
  have h2 := hi.static
  rw [hu.2] at h2
  cases h2
  obtain ⟨h3, h4, e, ⟨q, u, hq, hqb, hqs, hqc⟩, p, hpb, hps, hph⟩ := hi.ratchet r hr
  rcases hph with ⟨sv, hp⟩ | hph
  · obtain ⟨n0, _, he⟩ := h.logInv.ephHon cl q e hq (by rw [hqb]; rfl)
    obtain ⟨m, _, hm⟩ := h.logInv.encKey sv p e r.key hp (by rw [hpb]; rfl)
    cases r with
    | mk k al rc =>
      simp only at h3 h4 hm hpb
      subst h3 h4 he
      have hsess : ∃ m, k = .sess m := by
        obtain ⟨s', hs', hsent⟩ := h.authInv.sent sv p hp
        unfold SentOK at hsent
        rw [hpb] at hsent
        exact hsent
      obtain ⟨m', hm'⟩ := hsess
      refine ⟨sv, _, k, rfl, sessKey_secret h hp hpb hm', ⟨m', hm'⟩, u, q, p, hq, hqb, ?_, hqc, hp, hpb, hps⟩
      simpa using hqs
  · exact absurd (hph _ hps) hn

/-- C101, for sessions to which no SYN was delivered: a login session that got its channel, with a long-term key that the
attacker does not have, was served by a session that holds the same key and accepted what it presented. That session served
no other client session. Missing: sessions that were made to answer a SYN themselves, see
`C101_counterexample_fake_server`. -/
theorem C101_server_authenticated_partial (P : Prims) (evs : List Ev) (w : World) (h : Run P evs w) (cl : Nat) (s : Sess)
    (a : Acct) (r0 : Ratchet) (hs : w.sess[cl]? = some s) (hk : s.kind = .login) (hc : s.channel ≠ none) (hu : Under s a r0)
    (hn : ¬ w.Known r0.key) (hns : NoSyn evs cl) :
    ∃ sv, Served P w cl sv r0 ∧ ∀ cl' r0', Served P w cl' sv r0' → cl' = cl := by
  have hl := h.logInv
  have ha := h.authInv
  obtain ⟨a', r0', hi⟩ := h.clientInv cl s hs hk hns
  cases hch : s.channel with
  | none => exact absurd hch hc
  | some l =>
    obtain ⟨r, m, hr, hmb, hms, hmh, _⟩ := hi.chan l hch
    obtain ⟨sv, e, k, hrk, hsec, ⟨n, hkn⟩, hhs⟩ := partner h hs hk hns hu hn hr
    subst hrk
    simp only at hms
    rcases hmh with ⟨sv', hm⟩ | hmh
    · obtain ⟨s', hs', hsent⟩ := ha.sent sv' m hm
      unfold SentOK at hsent
      rw [hmb] at hsent
      obtain ⟨r', l', hr', hseal, a1, c, m1, hval, hm1b, hm1s, _, hm1h, _⟩ := hsent
      rw [hms] at hseal
      cases r' with
      | mk k' al rc =>
        simp only [Option.some.injEq, Seal.mk.injEq] at hseal
        obtain ⟨rfl, rfl⟩ := hseal
        obtain ⟨p1, r1, e1, q1, u1, n1, hp1, hp1b, _⟩ := (ha.sess sv' s' hs').bob _ _ hr'
        have hhs' := hhs
        obtain ⟨u, q, p, hq, hqb, hqs, hqc, hp, hpb, hps⟩ := hhs
        obtain ⟨rfl, rfl⟩ := hl.encUniq _ _ _ _ _ _ _ hp (by rw [hpb]; rfl) hp1 (by rw [hp1b]; rfl)
        have hm1 := presenter h hq hqb hp hpb hkn hm1h hm1b (by simpa using hm1s)
        refine ⟨sv, ⟨e, k, c, a1, hhs', ⟨m1, hm1, hm1b, by simpa using hm1s⟩, hval, m, hm, hmb, hms⟩, ?_⟩
        rintro cl' r0'' ⟨e2, k2, c2, a2, ⟨u2, q2, p2, hq2, hq2b, _, _, hp2, hp2b, _⟩, _, _, m2, hm2, hm2b, hm2s⟩
        obtain ⟨s2, hs2, hsent2⟩ := ha.sent sv m2 hm2
        rw [hs'] at hs2
        cases hs2
        unfold SentOK at hsent2
        rw [hm2b] at hsent2
        obtain ⟨r2, _, hr2, he2, _⟩ := hsent2
        rw [hr'] at hr2
        cases hr2
        rw [hm2s] at he2
        cases he2
        obtain ⟨_, rfl⟩ := hl.encUniq _ _ _ _ _ _ _ hp (by rw [hpb]; rfl) hp2 (by rw [hp2b]; rfl)
        rw [hpb] at hp2b
        cases hp2b
        exact (hl.ephUniq _ _ _ _ _ hq2 (by rw [hq2b]; rfl) hq (by rw [hqb]; rfl)).1
    · exact absurd (hmh _ hms) hsec

/-- C102, for sessions to which no SYN was delivered: the credentials of a login session, whose long-term key the attacker
does not have, are sent under a key that the attacker does not have and that a session with the same long-term key made
for this login. Missing: sessions that were made to answer a SYN themselves, see `C102_counterexample_fake_server`. -/
theorem C102_credentials_to_server_only_partial (P : Prims) (evs : List Ev) (w : World) (h : Run P evs w) (cl : Nat)
    (s : Sess) (a : Acct) (r0 : Ratchet) (hs : w.sess[cl]? = some s) (hk : s.kind = .login) (hu : Under s a r0)
    (hn : ¬ w.Known r0.key) (hns : NoSyn evs cl) (m : Pkt) (c : Creds) (hm : (cl, m) ∈ w.log)
    (hmb : m.body = .connStage0 c) :
    ∃ sv e k, m.sealed = some ⟨k, true⟩ ∧ ¬ w.Known k ∧ Handshake w cl sv ⟨r0.key, !r0.alice, r0.cid⟩ e k r0.cid := by
  obtain ⟨s', hs', hsent⟩ := h.authInv.sent cl m hm
  rw [hs] at hs'
  cases hs'
  unfold SentOK at hsent
  rw [hmb] at hsent
  obtain ⟨r, hr, hseal, _⟩ := hsent
  obtain ⟨sv, e, k, hrk, hsec, _, hhs⟩ := partner h hs hk hns hu hn hr
  subst hrk
  exact ⟨sv, e, k, hseal, hsec, hhs⟩

/-! ### Accounts -/

theorem Store.get_put_self (st : Store) (a : Acct) : (st.put a).get a.cid = some a := by
  rw [Store.get_put]; simp

/-- C103, for servers: nothing but the removal of an account changes it, whatever a node does in sessions it accepted, when
it starts sessions, or when packets arrive. Missing: a client that finishes a registration, see
`C103_counterexample_client_overwrites`. -/
theorem C103_no_overwrite_partial (P : Prims) (evs : List Ev) (w : World) (h : Run P evs w) (ev : Ev)
    (ha : w.Allowed ev) (n : Nat) (c : Cid) (a : Acct) (hg : (w.store n).get c = some a) (hr : ev ≠ .remove n c)
    (hs : ∀ sid i o (s : Sess), ev = .resume sid i o → w.sess[sid]? = some s → s.kind = .server) :
    ((w.step P ev).store n).get c = some a := by
  have hstore : ∀ sid node (r : Res), (r.st.get c = some a ∨ node ≠ n) → ((w.apply sid node r).store n).get c = some a := by
    intro sid node r hr
    rw [store_apply]
    split
    · rename_i hn
      rcases hr with hr | hr
      · exact hr
      · exact absurd hn.symm hr
    · exact hg
  cases ev with
  | accept node => exact hg
  | login node cid pw t udp =>
    unfold World.step
    simp only
    split
    · exact hg
    · split
      · exact hg
      · exact hg
  | transient node user t udp => exact hg
  | register node full user pw t salt => exact hg
  | steal m => exact hg
  | stop sid =>
    unfold World.step
    simp only
    split <;> exact hg
  | remove m d =>
    show ((w.setStore m _).store n).get c = _
    rw [store_setStore]
    split
    · rename_i hmn
      subst hmn
      have hd : d ≠ c := fun hd => hr (by rw [hd])
      exact (Store.get_del_ne _ hd).trans hg
    · exact hg
  | forbidTransient m =>
    show ((w.setStore m _).store n).get c = _
    rw [store_setStore]
    split
    · rename_i hmn
      subst hmn
      exact hg
    · exact hg
  | recv sid p o =>
    unfold World.step
    simp only
    split
    · exact hg
    · rename_i s hs
      split
      · exact hg
      · refine hstore _ _ _ ?_
        by_cases hn : s.node = n
        · left
          have := recv_cases (w.store s.node) s p o w.nextKey w.nextEph
          generalize recv (w.store s.node) s p o w.nextKey w.nextEph = res at this
          subst hn
          cases this <;> exact hg
        · exact .inr hn
  | resume sid i o =>
    unfold World.step
    simp only
    split
    · exact hg
    · rename_i s hsess
      split
      · exact hg
      · rename_i k hk
        split
        · exact hg
        · refine hstore _ _ _ ?_
          by_cases hn : s.node = n
          · left
            have hsv := hs sid i o s rfl hsess
            have hpend := (h.authInv.sess sid s hsess).pend k (List.mem_of_getElem? hk)
            have := resume_cases P (w.store s.node) { s with pend := s.pend.eraseIdx i } k o w.nextKey w.nextEph
            generalize resume P (w.store s.node) { s with pend := s.pend.eraseIdx i } k o w.nextKey w.nextEph = res at this
            subst hn
            cases this with
            | reg2 r creds cid t st' a' h' =>
              obtain ⟨rfl, _, _, _, _, hnone, _⟩ := registerImpersonal_some h'
              show (Store.put _ a').get c = _
              rw [Store.get_put]
              split
              · rename_i hc
                rw [hc, hnone] at hg
                cases hg
              · exact hg
            | regOk r creds st' a' h' => exact absurd hsv hpend
            | regDone r creds st' a' h' => exact absurd hsv hpend
            | _ => exact hg
          · exact .inr hn

/-! ### Panics -/

/-- C105, for sessions that get at most one SYN or SYN-ACK, at most one STAGE0 or SUCCESS of the connect stage, and no SYN
for the local account of CID 0: they do not panic. Missing: other sessions, see the counterexamples. -/
theorem C105_no_panic_partial (P : Prims) (evs : List Ev) (w : World) (h : Run P evs w) (sid : Nat) (s : Sess)
    (hs : w.sess[sid]? = some s) (h1 : deliveries sid Body.isSyn evs ≤ 1) (h2 : deliveries sid Body.isConn evs ≤ 1)
    (h3 : ∀ p o, Ev.recv sid p o ∈ evs → ∀ e u, p.body = .syn e u → p.cid ≠ 0) : s.panicked = false :=
  (h.panicInv sid h1 h2 h3 s hs).np

/-! ### The name of a channel -/

/-- C106, for accounts registered with the node (not by it) whose long-term key the attacker does not have: the channel a
server session gets, or is about to get, is named after the account that logged in. Missing: clients that are not honest,
see `C106_counterexample_foreign_name`. -/
theorem C106_channel_name_partial (P : Prims) (evs : List Ev) (w : World) (h : Run P evs w) (sv : Nat) (s : Sess) (a : Acct)
    (r0 : Ratchet) (hs : w.sess[sv]? = some s) (hk : s.kind = .server) (hu : Under s a r0) (hn : ¬ w.Known r0.key)
    (hb : r0.alice = false) (l : Cid) (hl : s.signal = some l ∨ s.channel = some l) : l = a.cid := by
  have hli := h.logInv
  have ha := h.authInv
  obtain ⟨r, hr, a1, c, m, hval, hmb, hms, hml, hmh, hcn⟩ := (ha.sess sv s hs).sig hk l hl
  cases r with
  | mk k al rc =>
    cases al with
    | true => exact absurd hk ((ha.sess sv s hs).ali k rc hr).1
    | false =>
      obtain ⟨p, r1, e, q, u, n, hp, hpb, hkn, hps, hqb, hqs, hqc, hqh, hsrv⟩ := (ha.sess sv s hs).bob k rc hr
      obtain ⟨a2, h1, h2, h3⟩ := hsrv hk
      rw [hu.1] at h1
      cases h1
      rw [hu.2] at h2
      cases h2
      rcases hqh with ⟨cl, hq⟩ | hqh
      · have hmc := presenter h hq hqb hp hpb hkn hmh hmb hms
        obtain ⟨s1, hs1, hsent⟩ := ha.sent cl m hmc
        unfold SentOK at hsent
        rw [hmb] at hsent
        obtain ⟨r', hr', hseal, hcid⟩ := hsent
        rw [hms] at hseal
        cases r' with
        | mk k' al' rc' =>
          simp only [Bool.not_false, Option.some.injEq, Seal.mk.injEq] at hseal
          obtain ⟨rfl, rfl⟩ := hseal
          obtain ⟨_, e', ⟨q', u', hq', hqb', hqc'⟩, henc⟩ := (ha.sess cl s1 hs1).ali _ _ hr'
          have hee : e' = e := by
            rcases henc with hk' | ⟨sid2, q2, hq2, hq2b⟩
            · obtain ⟨n0, _, he⟩ := hli.ephHon cl q e hq (by rw [hqb]; rfl)
              exact absurd hk' (sessKey_secret h hp (by rw [hpb, he]) hkn)
            · obtain ⟨_, rfl⟩ := hli.encUniq _ _ _ _ _ _ _ hp (by rw [hpb]; rfl) hq2 hq2b
              rw [hpb] at hq2b
              cases hq2b; rfl
          subst hee
          obtain ⟨_, rfl⟩ := hli.ephUniq _ _ _ _ _ hq (by rw [hqb]; rfl) hq' (by rw [hqb']; rfl)
          have := hqc' _ hqs (by simp [hb])
          rw [← hml, hcid, ← this, hqc]
          exact h3.symm
      · exact absurd (hqh _ hqs) hn

end Verif.Login

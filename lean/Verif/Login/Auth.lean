import Verif.Login.Local
/-!
The invariant behind authentication: what a session has agreed on goes back to packets of the other side.
-/
namespace Verif.Login

/-- A packet that was sent by a session or can be made by the attacker. -/
def World.Heard (w : World) (p : Pkt) : Prop :=
  (∃ sid, (sid, p) ∈ w.log) ∨ ∀ S, p.sealed = some S → w.Known S.key

def World.EncHeard (w : World) (e : Eph) (k : KeyId) : Prop :=
  w.Known k ∨ ∃ sid q, (sid, q) ∈ w.log ∧ q.body.encap = some (e, k)

theorem World.CanSend.heard {w : World} {p : Pkt} (h : w.CanSend p) : w.Heard p := by
  rcases h with h | h
  · exact .inl h
  · exact .inr h.1

theorem World.CanSend.encHeard {w : World} {p : Pkt} (h : w.CanSend p) {e : Eph} {k : KeyId}
    (hp : p.body.encap = some (e, k)) : w.EncHeard e k := by
  rcases h with ⟨sid, h⟩ | h
  · exact .inr ⟨sid, p, h, hp⟩
  · exact h.2.1 e k hp

theorem Ext.heard {w w' : World} (h : Ext w w') {p : Pkt} (hp : w.Heard p) : w'.Heard p := by
  rcases hp with ⟨sid, hp⟩ | hp
  · exact .inl ⟨sid, h.log _ hp⟩
  · exact .inr fun S hS => h.known (hp S hS)

theorem Ext.encHeard {w w' : World} (h : Ext w w') {e : Eph} {k : KeyId} (hp : w.EncHeard e k) : w'.EncHeard e k := by
  rcases hp with hp | ⟨sid, q, hq, h'⟩
  · exact .inl (h.known hp)
  · exact .inr ⟨sid, q, h.log _ hq, h'⟩

/-- Credentials accepted by a session with ratchet `r`; `l` is the CID in the header of their packet. -/
def Acc (P : Prims) (w : World) (s : Sess) (r : Ratchet) (l : Cid) : Prop :=
  ∃ a c q, validate P a.auth c = true ∧ q.body = .connStage0 c ∧ q.sealed = some ⟨r.key, !r.alice⟩ ∧ q.cid = l ∧
    w.Heard q ∧ (s.kind = .server → s.cnac = some a)

def Bob (w : World) (sid : Nat) (s : Sess) (k : KeyId) (c : Cid) : Prop :=
  ∃ p r0 e q u n, (sid, p) ∈ w.log ∧ p.body = .synAck e k ∧ k = .sess n ∧ p.sealed = some ⟨r0.key, r0.alice⟩ ∧
    q.body = .syn e u ∧ q.sealed = some ⟨r0.key, !r0.alice⟩ ∧ q.cid = c ∧ w.Heard q ∧
    (s.kind = .server → ∃ a, s.cnac = some a ∧ a.static = some r0 ∧ a.cid = c)

def Pre (w : World) (sid : Nat) (e : Eph) (c : Cid) : Prop :=
  ∃ q u, (sid, q) ∈ w.log ∧ q.body = .syn e u ∧ ∀ S, q.sealed = some S → S.alice = true → q.cid = c

def Ali (w : World) (sid : Nat) (k : KeyId) (c : Cid) : Prop := ∃ e, Pre w sid e c ∧ w.EncHeard e k

def PendOK (P : Prims) (w : World) (s : Sess) : Pend → Prop
  | .reg1 .. => s.kind ≠ .server
  | .regOk .. => s.kind ≠ .server
  | .punchInit .. => s.kind ≠ .server
  | .synGo p => w.Heard p
  | .conn0 r a c cid _ => s.ratchet = some r ∧ (s.kind = .server → s.cnac = some a) ∧
      ∃ q, q.body = .connStage0 c ∧ q.sealed = some ⟨r.key, !r.alice⟩ ∧ q.cid = cid ∧ w.Heard q
  | .connFin r l _ => s.ratchet = some r ∧ Acc P w s r l
  | _ => True

structure SessInv (P : Prims) (w : World) (sid : Nat) (s : Sess) : Prop where
  srv : s.kind = .server → s.creds = none ∧ s.regEph = none ∧ s.preEph = none ∧ s.connStage ≠ .s1 ∧ s.regStage ≠ .s2
  nat : ∀ r, s.ratchet = some r → s.natSet = true
  bob : ∀ k c, s.ratchet = some ⟨k, false, c⟩ → Bob w sid s k c
  ali : ∀ k c, s.ratchet = some ⟨k, true, c⟩ → s.kind ≠ .server ∧ Ali w sid k c
  pre : ∀ e c, s.preEph = some (e, c) → Pre w sid e c
  pend : ∀ k ∈ s.pend, PendOK P w s k
  conn : s.kind = .server → s.state = .connected → ∃ r l, s.ratchet = some r ∧ s.cid = some r.cid ∧ Acc P w s r l
  sig : s.kind = .server → ∀ l, s.signal = some l ∨ s.channel = some l → ∃ r, s.ratchet = some r ∧ Acc P w s r l

/-- What never changes once it is there. -/
structure Stable (s s' : Sess) : Prop where
  kind : s'.kind = s.kind
  ratchet : ∀ r, s.ratchet = some r → s'.ratchet = some r
  cnac : s.kind = .server → ∀ r, s.ratchet = some r → s'.cnac = s.cnac

theorem Stable.refl (s : Sess) : Stable s s := ⟨rfl, fun _ h => h, fun _ _ _ => rfl⟩

theorem Stable.of_eq {s s' : Sess} (h1 : s'.kind = s.kind) (h2 : s'.ratchet = s.ratchet) (h3 : s'.cnac = s.cnac) :
    Stable s s' := ⟨h1, fun r h => by rw [h2]; exact h, fun _ _ _ => h3⟩

theorem Acc.mono {P : Prims} {w w' : World} {s s' : Sess} {r : Ratchet} {l : Cid} (h : Acc P w s r l) (he : Ext w w')
    (hs : Stable s s') (hr : s.ratchet = some r) : Acc P w' s' r l := by
  obtain ⟨a, c, q, h1, h2, h3, h4, h5, h6⟩ := h
  refine ⟨a, c, q, h1, h2, h3, h4, he.heard h5, ?_⟩
  intro hk
  rw [hs.kind] at hk
  rw [hs.cnac hk r hr]
  exact h6 hk

theorem Pre.mono {w w' : World} {sid : Nat} {e : Eph} {c : Cid} (h : Pre w sid e c) (he : Ext w w') : Pre w' sid e c := by
  obtain ⟨q, u, h1, h2⟩ := h
  exact ⟨q, u, he.log _ h1, h2⟩

theorem Ali.mono {w w' : World} {sid : Nat} {k : KeyId} {c : Cid} (h : Ali w sid k c) (he : Ext w w') :
    Ali w' sid k c := by
  obtain ⟨e, h1, h2⟩ := h
  exact ⟨e, h1.mono he, he.encHeard h2⟩

theorem Bob.mono {w w' : World} {sid : Nat} {s s' : Sess} {k : KeyId} {c : Cid} (h : Bob w sid s k c) (he : Ext w w')
    (hs : Stable s s') (hr : s.ratchet = some ⟨k, false, c⟩) : Bob w' sid s' k c := by
  obtain ⟨p, r0, e, q, u, n, h1, h2, h3, h4, h5, h6, h7, h8, h9⟩ := h
  refine ⟨p, r0, e, q, u, n, he.log _ h1, h2, h3, h4, h5, h6, h7, he.heard h8, ?_⟩
  intro hk
  rw [hs.kind] at hk
  rw [hs.cnac hk _ hr]
  exact h9 hk

theorem PendOK.mono {P : Prims} {w w' : World} {s s' : Sess} {k : Pend} (h : PendOK P w s k) (he : Ext w w')
    (hs : Stable s s') : PendOK P w' s' k := by
  cases k with
  | reg0 => trivial
  | reg1 => show s'.kind ≠ .server; rw [hs.kind]; exact h
  | reg2 => trivial
  | regOk => show s'.kind ≠ .server; rw [hs.kind]; exact h
  | synGo p => exact he.heard h
  | punchInit => show s'.kind ≠ .server; rw [hs.kind]; exact h
  | punchResp => trivial
  | conn0 r a c cid t =>
    obtain ⟨h1, h2, q, h3, h4, h5, h6⟩ := h
    refine ⟨hs.ratchet r h1, ?_, q, h3, h4, h5, he.heard h6⟩
    intro hk
    rw [hs.kind] at hk
    rw [hs.cnac hk r h1]
    exact h2 hk
  | connFin r l t => exact ⟨hs.ratchet r h.1, h.2.mono he hs h.1⟩

/-- A session with the same ratchet and account. -/
theorem SessInv.same {P : Prims} {w w' : World} {sid : Nat} {s s' : Sess} (h : SessInv P w sid s) (he : Ext w w')
    (hk : s'.kind = s.kind) (hr : s'.ratchet = s.ratchet) (hc : s'.cnac = s.cnac)
    (h1 : s'.creds = s.creds ∨ s'.creds = none) (h2 : s'.regEph = s.regEph ∨ s'.regEph = none)
    (h3 : s'.preEph = s.preEph ∨ s'.preEph = none)
    (h4 : s'.connStage = s.connStage ∨ s'.connStage = .success ∨ s.kind ≠ .server)
    (h5 : s'.regStage = s.regStage ∨ s'.regStage = .s1 ∨ s.kind ≠ .server)
    (h6 : s.natSet = true → s'.natSet = true) (h7 : ∀ k ∈ s'.pend, k ∈ s.pend)
    (h8 : (s'.state = s.state ∧ s'.cid = s.cid) ∨ s'.state ≠ .connected ∨ s.kind ≠ .server)
    (h9 : ∀ l, s'.signal = some l ∨ s'.channel = some l → s.kind ≠ .server ∨ s.signal = some l ∨ s.channel = some l) :
    SessInv P w' sid s' := by
  have hs : Stable s s' := Stable.of_eq hk hr hc
  constructor
  · intro hsv
    rw [hk] at hsv
    obtain ⟨a, b, c, d, e⟩ := h.srv hsv
    refine ⟨?_, ?_, ?_, ?_, ?_⟩
    · rcases h1 with h1 | h1
      · rw [h1]; exact a
      · exact h1
    · rcases h2 with h1 | h1
      · rw [h1]; exact b
      · exact h1
    · rcases h3 with h1 | h1
      · rw [h1]; exact c
      · exact h1
    · rcases h4 with h1 | h1 | h1
      · rw [h1]; exact d
      · rw [h1]; simp
      · exact absurd hsv h1
    · rcases h5 with h1 | h1 | h1
      · rw [h1]; exact e
      · rw [h1]; simp
      · exact absurd hsv h1
  · intro r hr'
    rw [hr] at hr'
    exact h6 (h.nat r hr')
  · intro k c hr'
    rw [hr] at hr'
    exact (h.bob k c hr').mono he hs hr'
  · intro k c hr'
    rw [hr] at hr'
    rw [hk]
    exact ⟨(h.ali k c hr').1, (h.ali k c hr').2.mono he⟩
  · intro e c hp
    rcases h3 with h3 | h3
    · rw [h3] at hp
      exact (h.pre e c hp).mono he
    · rw [h3] at hp
      cases hp
  · intro k hk
    exact (h.pend k (h7 k hk)).mono he hs
  · intro hsv hst
    rw [hk] at hsv
    rcases h8 with ⟨h8, h8'⟩ | h8 | h8
    · rw [h8] at hst
      obtain ⟨r, l, ha, hb, hd⟩ := h.conn hsv hst
      exact ⟨r, l, hr.trans ha, h8'.trans hb, hd.mono he hs ha⟩
    · exact absurd hst h8
    · exact absurd hsv h8
  · intro hsv l hl
    rw [hk] at hsv
    rcases h9 l hl with h' | h'
    · exact absurd hsv h'
    · obtain ⟨r, ha, hd⟩ := h.sig hsv l h'
      exact ⟨r, hr.trans ha, hd.mono he hs ha⟩

theorem SessInv.mono {P : Prims} {w w' : World} {sid : Nat} {s : Sess} (h : SessInv P w sid s) (he : Ext w w') :
    SessInv P w' sid s :=
  h.same he rfl rfl rfl (.inl rfl) (.inl rfl) (.inl rfl) (.inl rfl) (.inl rfl) (fun h => h) (fun _ h => h)
    (.inl ⟨rfl, rfl⟩) (fun _ h => .inr h)

theorem SessInv.stop {P : Prims} {w w' : World} {sid : Nat} {s : Sess} (h : SessInv P w sid s) (he : Ext w w') :
    SessInv P w' sid s.stop :=
  h.same he rfl rfl rfl (.inl rfl) (.inl rfl) (.inl rfl) (.inl rfl) (.inl rfl) (fun h => h) (by simp [Sess.stop])
    (.inr (.inl (by simp [Sess.stop]))) (fun _ h => .inr h)

theorem SessInv.panic {P : Prims} {w w' : World} {sid : Nat} {s : Sess} (h : SessInv P w sid s) (he : Ext w w') :
    SessInv P w' sid s.panic :=
  h.same he rfl rfl rfl (.inl rfl) (.inl rfl) (.inl rfl) (.inl rfl) (.inl rfl) (fun h => h)
    (by simp [Sess.stop, Sess.panic]) (.inr (.inl (by simp [Sess.stop, Sess.panic]))) (fun _ h => .inr h)

theorem SessInv.push {P : Prims} {w w' : World} {sid : Nat} {s : Sess} (h : SessInv P w sid s) (he : Ext w w') (k : Pend)
    (hk : PendOK P w' s k) : SessInv P w' sid (s.suspend k) := by
  have h' := h.mono he
  have hs : Stable s (s.suspend k) := Stable.of_eq rfl rfl rfl
  constructor
  · exact h'.srv
  · exact h'.nat
  · intro k c hr
    exact (h'.bob k c hr).mono (Ext.refl _) hs hr
  · exact h'.ali
  · exact h'.pre
  · intro x hx
    simp only [Sess.suspend, List.mem_append, List.mem_singleton] at hx
    rcases hx with hx | rfl
    · exact (h'.pend x hx).mono (Ext.refl _) hs
    · exact hk.mono (Ext.refl _) hs
  · intro hsv hst
    obtain ⟨r, l, ha, hb, hd⟩ := h'.conn hsv hst
    exact ⟨r, l, ha, hb, hd.mono (Ext.refl _) hs ha⟩
  · intro hsv l hl
    obtain ⟨r, ha, hd⟩ := h'.sig hsv l hl
    exact ⟨r, ha, hd.mono (Ext.refl _) hs ha⟩

/-- What is known about the sender of a packet. -/
def SentOK (P : Prims) (w : World) (s : Sess) (p : Pkt) : Prop :=
  match p.body with
  | .connStage0 _ => ∃ r, s.ratchet = some r ∧ p.sealed = some ⟨r.key, r.alice⟩ ∧ p.cid = r.cid
  | .connSuccess => ∃ r l, s.ratchet = some r ∧ p.sealed = some ⟨r.key, r.alice⟩ ∧ Acc P w s r l
  | .synAck _ k => ∃ n, k = .sess n
  | _ => True

theorem SentOK.mono {P : Prims} {w w' : World} {s s' : Sess} {p : Pkt} (h : SentOK P w s p) (he : Ext w w')
    (hs : Stable s s') : SentOK P w' s' p := by
  unfold SentOK at h ⊢
  split
  · rename_i c hb
    rw [hb] at h
    obtain ⟨r, h1, h2⟩ := h
    exact ⟨r, hs.ratchet r h1, h2⟩
  · rename_i hb
    rw [hb] at h
    obtain ⟨r, l, h1, h2, h3⟩ := h
    exact ⟨r, l, hs.ratchet r h1, h2, h3.mono he hs h1⟩
  · rename_i e k hb
    rw [hb] at h
    exact h
  · trivial

/-- The result of a handler, seen in the world after it. -/
structure StepOK (P : Prims) (w' : World) (sid : Nat) (s : Sess) (r : Res) : Prop where
  inv : SessInv P w' sid r.s
  stable : Stable s r.s
  sent : ∀ q ∈ r.out, SentOK P w' r.s q

theorem adopt_ok {P : Prims} {w w' : World} {sid : Nat} {s : Sess} {p : Pkt} {own : Eph} {key : KeyId} {cid : Cid}
    {ps : PreStage} (h : SessInv P w sid s) (he : Ext w w') (hp : w.CanSend p) (hb : p.body = .synAck own key)
    (hpe : s.preEph = some (own, cid)) (hn : s.natSet = false) :
    SessInv P w' sid { s with preEph := none, natSet := true, ratchet := some ⟨key, true, cid⟩, preStage := ps } ∧
    Stable s { s with preEph := none, natSet := true, ratchet := some ⟨key, true, cid⟩, preStage := ps } ∧
    s.kind ≠ .server := by
  have hk : s.kind ≠ .server := by
    intro hk
    rw [(h.srv hk).2.2.1] at hpe
    cases hpe
  have hr : ∀ r, s.ratchet ≠ some r := by
    intro r hr
    rw [h.nat r hr] at hn
    cases hn
  have hs : Stable s { s with preEph := none, natSet := true, ratchet := some ⟨key, true, cid⟩, preStage := ps } :=
    ⟨rfl, fun r h' => absurd h' (hr r), fun h' => absurd h' hk⟩
  refine ⟨?_, hs, hk⟩
  constructor
  · intro h'; exact absurd h' hk
  · intro r _; rfl
  · intro k c h'; cases h'
  · intro k c h'
    cases h'
    refine ⟨hk, own, (h.pre _ _ hpe).mono he, he.encHeard (hp.encHeard ?_)⟩
    rw [hb]; rfl
  · intro e c h'; cases h'
  · intro x hx
    exact (h.pend x hx).mono he hs
  · intro h'; exact absurd h' hk
  · intro h'; exact absurd h' hk

theorem recv_ok {P : Prims} {st : Store} {w w' : World} {sid : Nat} {s : Sess} {p : Pkt} {o : Oracle} {nk ne : Nat}
    {r : Res} (h : SessInv P w sid s) (he : Ext w w') (hp : w.CanSend p) (hr : RecvCase st s p o nk ne r) :
    StepOK P w' sid s r := by
  have eq : ∀ {s' : Sess}, s'.kind = s.kind → s'.ratchet = s.ratchet → s'.cnac = s.cnac → Stable s s' :=
    fun h1 h2 h3 => Stable.of_eq h1 h2 h3
  cases hr with
  | drop => exact ⟨h.mono he, Stable.refl s, by simp⟩
  | stop out ho =>
    refine ⟨h.stop he, eq rfl rfl rfl, ?_⟩
    intro q hq
    rcases ho with rfl | rfl | rfl
    · cases hq
    · simp only [List.mem_singleton] at hq; subst hq; trivial
    · simp only [List.mem_singleton] at hq; subst hq; trivial
  | panicNat => exact ⟨h.panic he, eq rfl rfl rfl, by simp⟩
  | panicStatic => exact ⟨h.panic he, eq rfl rfl rfl, by simp⟩
  | panicFtc => exact ⟨h.panic he, eq rfl rfl rfl, by simp⟩
  | reg0 => exact ⟨h.push he _ trivial, eq rfl rfl rfl, by simp⟩
  | reg1 eph own key cid hb hre =>
    have hk : s.kind ≠ .server := by
      intro hk
      rw [(h.srv hk).2.1] at hre
      cases hre
    refine ⟨SessInv.push (h.same (s' := { s with regEph := none }) he rfl rfl rfl (.inl rfl) (.inr rfl) (.inl rfl)
      (.inl rfl) (.inl rfl) (fun h => h) (fun _ h => h) (.inl ⟨rfl, rfl⟩) (fun _ h => .inr h)) (Ext.refl _) _ hk,
      eq rfl rfl rfl, by simp⟩
  | reg2 => exact ⟨h.push he _ trivial, eq rfl rfl rfl, by simp⟩
  | regOk r creds tr hb hr hc ht hs ho =>
    have hk : s.kind ≠ .server := by
      intro hk
      rw [(h.srv hk).1] at hc
      cases hc
    exact ⟨h.push he _ hk, eq rfl rfl rfl, by simp⟩
  | syn eph udp hb hok => exact ⟨h.push he _ (he.heard hp.heard), eq rfl rfl rfl, by simp⟩
  | adoptTcp a r0 own key cid hb hc hpe hs ho hn hpv =>
    obtain ⟨h1, h2, h3⟩ := adopt_ok (ps := .success) h he hp hb hpe hn
    exact ⟨h1, h2, by simp [SentOK, Ratchet.protect]⟩
  | adoptQuic a r0 own key cid hb hc hpe hs ho hn hpv =>
    obtain ⟨h1, h2, h3⟩ := adopt_ok (ps := .success) h he hp hb hpe hn
    exact ⟨h1, h2, by simp [SentOK, Ratchet.protect]⟩
  | adoptUdp a r0 own key cid hb hc hpe hs ho hn hpv =>
    obtain ⟨h1, h2, h3⟩ := adopt_ok (ps := s.preStage) h he hp hb hpe hn
    exact ⟨h1.push (Ext.refl _) _ h3, ⟨h2.kind, h2.ratchet, h2.cnac⟩, by simp [SentOK, Ratchet.protect]⟩
  | punch => exact ⟨h.push he _ trivial, eq rfl rfl rfl, by simp⟩
  | proceed r u ps hr ho =>
    exact ⟨h.same he rfl rfl rfl (.inl rfl) (.inl rfl) (.inl rfl) (.inl rfl) (.inl rfl) (fun h => h) (fun _ h => h)
      (.inl ⟨rfl, rfl⟩) (fun _ h => .inr h), eq rfl rfl rfl, by simp [SentOK, Ratchet.protect]⟩
  | finalStop u ps =>
    exact ⟨h.same he rfl rfl rfl (.inl rfl) (.inl rfl) (.inl rfl) (.inl rfl) (.inl rfl) (fun h => h) (by simp [Sess.stop])
      (.inr (.inl (by simp [Sess.stop]))) (fun _ h => .inr h), eq rfl rfl rfl, by simp⟩
  | beginNone =>
    exact ⟨h.same he rfl rfl rfl (.inl rfl) (.inl rfl) (.inl rfl) (.inl rfl) (.inl rfl) (fun h => h) (fun _ h => h)
      (.inl ⟨rfl, rfl⟩) (fun _ h => .inr h), eq rfl rfl rfl, by simp⟩
  | begin r c hb hr ho hc hs hpv =>
    have hk : s.kind ≠ .server := by
      intro hk
      rw [(h.srv hk).1] at hc
      cases hc
    refine ⟨h.same he rfl rfl rfl (.inr rfl) (.inl rfl) (.inl rfl) (.inr (.inr hk)) (.inl rfl) (fun h => h) (fun _ h => h)
      (.inr (.inl (by simp))) (fun _ h => .inr h), eq rfl rfl rfl, ?_⟩
    intro q hq
    simp only [List.mem_singleton] at hq
    subst hq
    exact ⟨r, hr, rfl, rfl⟩
  | conn0 r a c hb hr ha ho hs hpv =>
    refine ⟨h.push he _ ⟨hr, fun _ => ha, p, hb, ?_, rfl, he.heard hp.heard⟩, eq rfl rfl rfl, by simp⟩
    simpa [Ratchet.opens] using ho
  | connFailure =>
    exact ⟨h.same he rfl rfl rfl (.inl rfl) (.inl rfl) (.inl rfl) (.inl rfl) (.inl rfl) (fun h => h) (by simp [Sess.stop])
      (.inr (.inl (by simp [Sess.stop]))) (fun _ h => .inr h), eq rfl rfl rfl, by simp⟩
  | connOk r a hb hr ha ho hf hs hok hpv =>
    have hk : s.kind ≠ .server := by
      intro hk
      exact (h.srv hk).2.2.2.1 hs
    exact ⟨h.same he rfl rfl rfl (.inl rfl) (.inl rfl) (.inl rfl) (.inr (.inl rfl)) (.inl rfl) (fun h => h) (fun _ h => h)
      (.inr (.inr hk)) (fun _ _ => .inl hk), eq rfl rfl rfl, by simp [SentOK, Ratchet.protect]⟩
  | connStop r hb hr hf hs =>
    exact ⟨h.same he rfl rfl rfl (.inl rfl) (.inl rfl) (.inl rfl) (.inr (.inl rfl)) (.inl rfl) (fun h => h)
      (by simp [Sess.stop]) (.inr (.inl (by simp [Sess.stop]))) (fun _ h => .inr h), eq rfl rfl rfl, by simp⟩
  | connLate =>
    exact ⟨h.same he rfl rfl rfl (.inl rfl) (.inl rfl) (.inl rfl) (.inl rfl) (.inl rfl) (fun h => h) (fun _ h => h)
      (.inl ⟨rfl, rfl⟩) (fun _ h => .inr h), eq rfl rfl rfl, by simp⟩
  | ack hb hk =>
    refine ⟨h.same he rfl rfl rfl (.inl rfl) (.inl rfl) (.inl rfl) (.inl rfl) (.inl rfl) (fun h => h) (fun _ h => h)
      (.inl ⟨rfl, rfl⟩) ?_, eq rfl rfl rfl, by simp⟩
    intro l hl
    rcases hl with hl | hl
    · cases hl
    · exact .inr (.inl hl)

theorem resume_ok {P : Prims} {st : Store} {w w' : World} {sid : Nat} {s : Sess} {k : Pend} {i : Nat} {o : Oracle}
    {nk ne : Nat} {r : Res} (h : SessInv P w sid s) (hl : SessLoc P s) (hst : StoreOK st) (he : Ext w w')
    (hk : s.pend[i]? = some k) (hr : ResumeCase P st { s with pend := s.pend.eraseIdx i } o nk ne k r)
    (hout : ∀ q ∈ r.out, (sid, q) ∈ w'.log) : StepOK P w' sid s r := by
  have hk : k ∈ s.pend := List.mem_of_getElem? hk
  have hp := h.pend k hk
  have h' : SessInv P w sid { s with pend := s.pend.eraseIdx i } :=
    h.same (Ext.refl _) rfl rfl rfl (.inl rfl) (.inl rfl) (.inl rfl) (.inl rfl) (.inl rfl) (fun h => h)
      (fun k hk => List.mem_of_mem_eraseIdx hk) (.inl ⟨rfl, rfl⟩) (fun _ h => .inr h)
  have eq : ∀ {s' : Sess}, s'.kind = s.kind → s'.ratchet = s.ratchet → s'.cnac = s.cnac → Stable s s' :=
    fun h1 h2 h3 => Stable.of_eq h1 h2 h3
  cases hr with
  | reg0 cid eph tr t hs =>
    exact ⟨h'.same he rfl rfl rfl (.inl rfl) (.inl rfl) (.inl rfl) (.inl rfl) (.inr (.inl rfl)) (fun h => h) (fun _ h => h)
      (.inl ⟨rfl, rfl⟩) (fun _ h => .inr h), eq rfl rfl rfl, by simp [SentOK, plain]⟩
  | reg0Late => exact ⟨h'.mono he, eq rfl rfl rfl, by simp⟩
  | reg1 own cid key c t =>
    exact ⟨h'.same he rfl rfl rfl (.inl rfl) (.inl rfl) (.inl rfl) (.inl rfl) (.inr (.inr hp)) (fun h => h) (fun _ h => h)
      (.inl ⟨rfl, rfl⟩) (fun _ h => .inr h), eq rfl rfl rfl, by simp [SentOK, Ratchet.protect]⟩
  | drop => exact ⟨h'.mono he, eq rfl rfl rfl, by simp⟩
  | stop => exact ⟨h'.stop he, eq rfl rfl rfl, by simp⟩
  | reg2 => exact ⟨h'.mono he, eq rfl rfl rfl, by simp [SentOK, Ratchet.protect]⟩
  | reg2Fail => exact ⟨h'.mono he, eq rfl rfl rfl, by simp [SentOK, plain]⟩
  | regOk r creds st' a h0 =>
    obtain ⟨h1, h2, h3⟩ := registerPersonal_static h0
    have hsv : s.kind ≠ .server := hp
    have hs : Stable s { s with
        pend := s.pend.eraseIdx i, state := .needsConnect, preStage := .synAck,
        preEph := some (.hon ne, a.cid), cnac := some a } := ⟨rfl, fun _ h => h, fun h => absurd h hsv⟩
    refine ⟨?_, hs, by simp [SentOK, Ratchet.protect]⟩
    constructor
    · intro h''; exact absurd h'' hsv
    · exact h.nat
    · intro k c hr; exact (h.bob k c hr).mono he hs hr
    · intro k c hr; exact ⟨hsv, (h.ali k c hr).2.mono he⟩
    · intro e c hpe
      cases hpe
      refine ⟨_, _, hout _ (List.mem_singleton.2 rfl), rfl, ?_⟩
      intro S hS ha
      cases hS
      rw [h1]
      exact hl.p3 _ _ _ hk ha
    · intro x hx
      exact (h.pend x (List.mem_of_mem_eraseIdx hx)).mono he hs
    · intro h''; exact absurd h'' hsv
    · intro h''; exact absurd h'' hsv
  | regDone => exact ⟨h'.stop he, eq rfl rfl rfl, by simp⟩
  | synHalt => exact ⟨h'.stop he, eq rfl rfl rfl, by simp [SentOK, plain]⟩
  | synStatic => exact ⟨h'.panic he, eq rfl rfl rfl, by simp⟩
  | synNat => exact ⟨h'.panic he, eq rfl rfl rfl, by simp⟩
  | synOk p eph udp a r0 hb hg hs0 ho hn =>
    have hr : ∀ r, s.ratchet ≠ some r := by
      intro r hr
      have := h.nat r hr
      rw [show s.natSet = false from hn] at this
      cases this
    have hs : Stable s { s with
        pend := s.pend.eraseIdx i, natSet := true, ticket := p.ticket,
        ratchet := some ⟨.sess nk, false, p.cid⟩, preStage := .synAck, udp := udp, cnac := some a,
        cid := some p.cid } :=
      ⟨rfl, fun r h' => absurd h' (hr r), fun _ r h' => absurd h' (hr r)⟩
    refine ⟨?_, hs, by simp [SentOK, Ratchet.protect]⟩
    constructor
    · intro h''; exact h.srv h''
    · intro r _; rfl
    · intro k c hr'
      cases hr'
      refine ⟨_, r0, eph, p, udp, nk, hout _ (List.mem_singleton.2 rfl), rfl, rfl, rfl, hb, ?_, rfl, he.heard hp, ?_⟩
      · simpa [Ratchet.opens] using ho
      · intro _
        exact ⟨a, rfl, hs0, (hst _ _ hg).1⟩
    · intro k c hr'; cases hr'
    · intro e c hpe; exact (h.pre e c hpe).mono he
    · intro x hx
      exact (h.pend x (List.mem_of_mem_eraseIdx hx)).mono he hs
    · intro hsv hst'
      obtain ⟨r, l, h1, _⟩ := h.conn hsv hst'
      exact absurd h1 (hr r)
    · intro hsv l hl
      obtain ⟨r, h1, _⟩ := h.sig hsv l hl
      exact absurd h1 (hr r)
  | punchInit =>
    exact ⟨h'.same he rfl rfl rfl (.inl rfl) (.inl rfl) (.inl rfl) (.inl rfl) (.inl rfl) (fun h => h) (fun _ h => h)
      (.inl ⟨rfl, rfl⟩) (fun _ h => .inr h), eq rfl rfl rfl, by simp [SentOK, Ratchet.protect]⟩
  | punchResp =>
    exact ⟨h'.same he rfl rfl rfl (.inl rfl) (.inl rfl) (.inl rfl) (.inl rfl) (.inl rfl) (fun h => h) (fun _ h => h)
      (.inl ⟨rfl, rfl⟩) (fun _ h => .inr h), eq rfl rfl rfl, by simp⟩
  | connPanic => exact ⟨h'.panic he, eq rfl rfl rfl, by simp⟩
  | connStop r a c cid t cs hf hc =>
    refine ⟨h'.same he rfl rfl rfl (.inl rfl) (.inl rfl) (.inl rfl) ?_ (.inl rfl) (fun h => h)
      (by simp [Sess.stop]) (.inr (.inl (by simp [Sess.stop]))) (fun _ h => .inr h), eq rfl rfl rfl, by simp⟩
    rcases hc with hc | hc
    · exact .inl hc
    · exact .inr (.inl hc)
  | connOk r a c cid t hv hf ht =>
    have h1 : SessInv P w' sid { s with pend := s.pend.eraseIdx i, ftcSet := true, connStage := .success } :=
      h'.same he rfl rfl rfl (.inl rfl) (.inl rfl) (.inl rfl) (.inr (.inl rfl)) (.inl rfl) (fun h => h) (fun _ h => h)
        (.inl ⟨rfl, rfl⟩) (fun _ h => .inr h)
    obtain ⟨ha, hb, q, hq1, hq2, hq3, hq4⟩ := hp
    exact ⟨h1.push (Ext.refl _) _ ⟨ha, a, c, q, hv, hq1, hq2, hq3, he.heard hq4, hb⟩, eq rfl rfl rfl, by simp⟩
  | connFail => exact ⟨h'.mono he, eq rfl rfl rfl, by simp [SentOK, Ratchet.protect]⟩
  | connFin r label t =>
    obtain ⟨ha, hacc⟩ := hp
    have hs : Stable s { s with
        pend := s.pend.eraseIdx i, cid := some r.cid, state := .connected, signal := some label } := eq rfl rfl rfl
    refine ⟨?_, hs, ?_⟩
    · have h1 := h'.mono he
      constructor
      · exact h1.srv
      · exact h1.nat
      · intro k c hr; exact (h.bob k c hr).mono he hs hr
      · exact h1.ali
      · exact h1.pre
      · intro x hx
        exact (h.pend x (List.mem_of_mem_eraseIdx hx)).mono he hs
      · intro _ _
        exact ⟨r, label, ha, rfl, hacc.mono he hs ha⟩
      · intro hsv l hl
        rcases hl with hl | hl
        · cases hl
          exact ⟨r, ha, hacc.mono he hs ha⟩
        · obtain ⟨r', h2, h3⟩ := h.sig hsv l (.inr hl)
          exact ⟨r', h2, h3.mono he hs h2⟩
    · intro q hq
      simp only [List.mem_singleton] at hq
      subst hq
      exact ⟨r, label, ha, rfl, hacc.mono he hs ha⟩

structure AuthInv (P : Prims) (w : World) : Prop where
  sess : ∀ (sid : Nat) (s : Sess), w.sess[sid]? = some s → SessInv P w sid s
  sent : ∀ (sid : Nat) (p : Pkt), (sid, p) ∈ w.log → ∃ s : Sess, w.sess[sid]? = some s ∧ SentOK P w s p

theorem AuthInv.init (P : Prims) : AuthInv P World.init :=
  ⟨by simp [World.init], by simp [World.init]⟩

theorem AuthInv.apply {P : Prims} {w : World} {sid : Nat} {s : Sess} {r : Res} (h : AuthInv P w)
    (hs : w.sess[sid]? = some s) (hr : StepOK P (w.apply sid s.node r) sid s r) : AuthInv P (w.apply sid s.node r) := by
  have he := ext_apply w sid s.node r
  have hlt : sid < w.sess.length := by
    rcases List.getElem?_eq_some_iff.1 hs with ⟨h, _⟩; exact h
  have hget : (w.apply sid s.node r).sess[sid]? = some r.s := by
    simp [World.apply, hlt]
  constructor
  · intro i s' hs'
    rcases getElem?_set_cases hs' with ⟨rfl, rfl⟩ | ⟨_, hs'⟩
    · exact hr.inv
    · exact (h.sess i s' hs').mono he
  · intro i p hp
    simp only [World.apply, List.mem_append, List.mem_map, Prod.mk.injEq] at hp
    rcases hp with hp | ⟨q, hq, rfl, rfl⟩
    · obtain ⟨s', hs', hok⟩ := h.sent i p hp
      by_cases hi : i = sid
      · subst hi
        rw [hs] at hs'
        cases hs'
        exact ⟨r.s, hget, hok.mono he hr.stable⟩
      · refine ⟨s', ?_, hok.mono he (Stable.refl _)⟩
        show (w.sess.set sid r.s)[i]? = _
        rw [List.getElem?_set_ne (fun h => hi h.symm)]
        exact hs'
    · exact ⟨r.s, hget, hr.sent q hq⟩

theorem AuthInv.new {P : Prims} {w : World} (h : AuthInv P w) (s : Sess) (q : Pkt) (w' : World)
    (h1 : w'.sess = w.sess ++ [s]) (h2 : w'.log = w.log ++ [(w.sess.length, q)]) (he : Ext w w')
    (hs : SessInv P w' w.sess.length s) (hq : SentOK P w' s q) : AuthInv P w' := by
  constructor
  · intro i s' hs'
    rw [h1] at hs'
    rcases getElem?_append_cases hs' with hs' | ⟨rfl, rfl⟩
    · exact (h.sess i s' hs').mono he
    · exact hs
  · intro i p hp
    rw [h2] at hp
    rcases List.mem_append.1 hp with hp | hp
    · obtain ⟨s', hs', hok⟩ := h.sent i p hp
      refine ⟨s', ?_, hok.mono he (Stable.refl _)⟩
      rw [h1, List.getElem?_append_left]
      · exact hs'
      · rcases List.getElem?_eq_some_iff.1 hs' with ⟨h, _⟩; exact h
    · simp only [List.mem_singleton, Prod.mk.injEq] at hp
      obtain ⟨rfl, rfl⟩ := hp
      exact ⟨s, by rw [h1]; simp, hq⟩

theorem AuthInv.step {P : Prims} {w w' : World} {ev : Ev} (h : AuthInv P w) (hl : LocInv P w)
    (hc : StepCase P w ev w') : AuthInv P w' := by
  have he := hc.ext
  cases hc with
  | store _ _ h1 h2 h3 h4 h5 hst =>
    refine ⟨?_, ?_⟩
    · intro i s hs
      rw [h1] at hs
      exact (h.sess i s hs).mono he
    · intro i p hp
      rw [h2] at hp
      obtain ⟨s, hs, hok⟩ := h.sent i p hp
      exact ⟨s, by rw [h1]; exact hs, hok.mono he (Stable.refl _)⟩
  | steal n hn =>
    refine ⟨fun i s hs => (h.sess i s hs).mono he, ?_⟩
    intro i p hp
    obtain ⟨s, hs, hok⟩ := h.sent i p hp
    exact ⟨s, hs, hok.mono he (Stable.refl _)⟩
  | accept node =>
    constructor
    · intro i s' hs'
      rcases getElem?_append_cases hs' with hs' | ⟨rfl, rfl⟩
      · exact (h.sess i s' hs').mono he
      · constructor <;> simp
    · intro i p hp
      obtain ⟨s', hs', hok⟩ := h.sent i p hp
      refine ⟨s', ?_, hok.mono he (Stable.refl _)⟩
      show (w.sess ++ [_])[i]? = _
      rw [List.getElem?_append_left]
      · exact hs'
      · rcases List.getElem?_eq_some_iff.1 hs' with ⟨h, _⟩; exact h
  | login node cid pw t udp a r hg hs =>
    refine h.new _ _ _ rfl rfl he ?_ trivial
    constructor
    · simp
    · simp
    · simp
    · simp
    · intro e c hpe
      cases hpe
      refine ⟨_, _, List.mem_append_right _ (List.mem_singleton.2 rfl), rfl, ?_⟩
      intro S hS ha
      cases hS
      exact (hl.store node _ _ hg).2.2 r hs ha
    · simp
    · simp
    · simp
  | transient node user t udp =>
    refine h.new _ _ _ rfl rfl he ?_ trivial
    constructor <;> simp
  | register node full user pw t salt =>
    refine h.new _ _ _ rfl rfl he ?_ trivial
    constructor <;> simp
  | recv sid p o s r hs ho hp hr =>
    exact h.apply hs (recv_ok (h.sess sid s hs) he hp hr)
  | resume sid i o s k r hs ho hk hr =>
    refine h.apply hs (resume_ok (h.sess sid s hs) (hl.sess sid s hs) (hl.store _) he hk hr ?_)
    intro q hq
    exact List.mem_append_right _ (List.mem_map.2 ⟨q, hq, rfl⟩)
  | stop sid s hs =>
    have hlt : sid < w.sess.length := by
      rcases List.getElem?_eq_some_iff.1 hs with ⟨h, _⟩; exact h
    constructor
    · intro i s' hs'
      rcases getElem?_set_cases hs' with ⟨rfl, rfl⟩ | ⟨_, hs'⟩
      · exact (h.sess _ s hs).stop he
      · exact (h.sess i s' hs').mono he
    · intro i p hp
      obtain ⟨s', hs', hok⟩ := h.sent i p hp
      by_cases hi : i = sid
      · subst hi
        rw [hs] at hs'
        cases hs'
        exact ⟨s.stop, by simp [hlt], hok.mono he (Stable.of_eq rfl rfl rfl)⟩
      · refine ⟨s', ?_, hok.mono he (Stable.refl _)⟩
        show (w.sess.set sid s.stop)[i]? = _
        rw [List.getElem?_set_ne (fun h => hi h.symm)]
        exact hs'

theorem Run.authInv {P : Prims} {evs : List Ev} {w : World} (h : Run P evs w) : AuthInv P w := by
  induction h with
  | init => exact AuthInv.init P
  | step hr ha ih => exact ih.step hr.locInv (step_cases P _ _ ha)

end Verif.Login

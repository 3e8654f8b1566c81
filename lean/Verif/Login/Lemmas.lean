import Verif.Login.Cases
/-!
Invariants of all runs: keys and ephemeral keys in the log of sent packets are used once, keys of the attacker are only
those made for it or stolen.
-/
namespace Verif.Login

/-- Nothing sent and no key of the attacker is forgotten. -/
structure Ext (w w' : World) : Prop where
  log : ∀ x ∈ w.log, x ∈ w'.log
  leaked : ∀ k ∈ w.leaked, k ∈ w'.leaked

theorem Ext.refl (w : World) : Ext w w := ⟨fun _ h => h, fun _ h => h⟩

theorem Ext.known {w w' : World} (h : Ext w w') {k : KeyId} (hk : w.Known k) : w'.Known k := by
  cases k with
  | dev n => exact h.leaked _ hk
  | sess n => exact h.leaked _ hk
  | atk n => trivial

theorem ext_apply (w : World) (sid node : Nat) (r : Res) : Ext w (w.apply sid node r) := by
  constructor
  · intro x hx
    exact List.mem_append_left _ hx
  · intro k hk
    exact List.mem_append_left _ hk

/-! ### Shape of the packets a handler sends -/

/-- A handler makes at most one key or one ephemeral key, and sends it at most once. -/
inductive Shape (nk ne : Nat) : Res → Prop
  | quiet {r : Res} (ho : ∀ q ∈ r.out, q.body.encap = none ∧ q.body.eph = none) (hk : r.nextKey = nk)
      (he : r.nextEph = ne) (hm : r.made = []) : Shape nk ne r
  | key {r : Res} (e : Eph) (k : KeyId) (hk : k = .dev nk ∨ k = .sess nk) (hn : r.nextKey = nk + 1) (he : r.nextEph = ne)
      (hm : r.made = [(e, k)])
      (ho : r.out = [] ∨ ∃ q, r.out = [q] ∧ q.body.encap = some (e, k) ∧ q.body.eph = none) : Shape nk ne r
  | eph {r : Res} (q : Pkt) (ho : r.out = [q]) (hq : q.body.eph = some (.hon ne)) (hq' : q.body.encap = none)
      (hk : r.nextKey = nk) (he : r.nextEph = ne + 1) (hm : r.made = []) : Shape nk ne r

theorem RecvCase.shape {st : Store} {s : Sess} {p : Pkt} {o : Oracle} {nk ne : Nat} {r : Res}
    (h : RecvCase st s p o nk ne r) : Shape nk ne r := by
  cases h with
  | stop out h =>
    refine .quiet ?_ rfl rfl rfl
    rcases h with rfl | rfl | rfl <;> simp [plain, Body.encap, Body.eph]
  | _ => exact .quiet (by simp [Ratchet.protect, Body.encap, Body.eph]) rfl rfl rfl

theorem ResumeCase.shape {P : Prims} {st : Store} {s : Sess} {k : Pend} {o : Oracle} {nk ne : Nat} {r : Res}
    (h : ResumeCase P st s o nk ne k r) : Shape nk ne r := by
  cases h with
  | reg0 cid eph tr t hs =>
    exact .key eph (.dev nk) (.inl rfl) rfl rfl rfl (.inr ⟨_, rfl, rfl, rfl⟩)
  | reg0Late cid eph tr t => exact .key eph (.dev nk) (.inl rfl) rfl rfl rfl (.inl rfl)
  | regOk r creds st' a h => exact .eph _ rfl rfl rfl rfl rfl rfl
  | synNat p eph udp hb hn => exact .key eph (.sess nk) (.inr rfl) rfl rfl rfl (.inl rfl)
  | synOk p eph udp a r0 hb hg hs ho hn =>
    exact .key eph (.sess nk) (.inr rfl) rfl rfl rfl (.inr ⟨_, rfl, rfl, rfl⟩)
  | _ => exact .quiet (by simp [plain, Ratchet.protect, Body.encap, Body.eph]) rfl rfl rfl

/-! ### The log -/

structure LogInv (w : World) : Prop where
  encKey : ∀ sid p e k, (sid, p) ∈ w.log → p.body.encap = some (e, k) → ∃ n, n < w.nextKey ∧ (k = .dev n ∨ k = .sess n)
  encUniq : ∀ sid p e k sid' p' e', (sid, p) ∈ w.log → p.body.encap = some (e, k) → (sid', p') ∈ w.log →
    p'.body.encap = some (e', k) → sid = sid' ∧ p = p'
  ephHon : ∀ sid p e, (sid, p) ∈ w.log → p.body.eph = some e → ∃ n, n < w.nextEph ∧ e = .hon n
  ephUniq : ∀ sid p e sid' p', (sid, p) ∈ w.log → p.body.eph = some e → (sid', p') ∈ w.log →
    p'.body.eph = some e → sid = sid' ∧ p = p'
  leak : ∀ k, k ∈ w.leaked → (∃ n, n < w.nextKey ∧ k = .dev n) ∨
    (∃ n, n < w.nextKey ∧ k = .sess n ∧ ∀ sid p e, (sid, p) ∈ w.log → p.body.encap = some (e, k) → ∃ m, e = .atk m)

theorem LogInv.init : LogInv World.init := by
  constructor <;> simp [World.init]

theorem LogInv.congr {w w' : World} (h : LogInv w) (h1 : w'.log = w.log) (h2 : w'.leaked = w.leaked)
    (h3 : w'.nextKey = w.nextKey) (h4 : w'.nextEph = w.nextEph) : LogInv w' := by
  obtain ⟨a, b, c, d, e⟩ := h
  constructor
  · rw [h1, h3]; exact a
  · rw [h1]; exact b
  · rw [h1, h4]; exact c
  · rw [h1]; exact d
  · rw [h1, h2, h3]; exact e

/-- A new ephemeral key is sent. -/
theorem LogInv.addEph {w w' : World} (h : LogInv w) (sid : Nat) (q : Pkt) (hl : w'.log = w.log ++ [(sid, q)])
    (hq : q.body.eph = some (.hon w.nextEph)) (hq' : q.body.encap = none) (hk : w'.nextKey = w.nextKey)
    (he : w'.nextEph = w.nextEph + 1) (hlk : w'.leaked = w.leaked) : LogInv w' := by
  have mem : ∀ x, x ∈ w'.log ↔ x ∈ w.log ∨ x = (sid, q) := by
    intro x; rw [hl]; simp
  constructor
  · intro i p e k hm hp
    rw [hk]
    rcases (mem _).1 hm with hm | hm
    · exact h.encKey i p e k hm hp
    · cases hm
      rw [hq'] at hp
      cases hp
  · intro i p e k i' p' e' hm hp hm' hp'
    rcases (mem _).1 hm with hm | hm
    · rcases (mem _).1 hm' with hm' | hm'
      · exact h.encUniq i p e k i' p' e' hm hp hm' hp'
      · cases hm'
        rw [hq'] at hp'
        cases hp'
    · cases hm
      rw [hq'] at hp
      cases hp
  · intro i p e hm hp
    rw [he]
    rcases (mem _).1 hm with hm | hm
    · obtain ⟨n, hn, h'⟩ := h.ephHon i p e hm hp
      exact ⟨n, by omega, h'⟩
    · cases hm
      rw [hq] at hp
      exact ⟨w.nextEph, by omega, (Option.some.inj hp).symm⟩
  · intro i p e i' p' hm hp hm' hp'
    rcases (mem _).1 hm with hm | hm
    · rcases (mem _).1 hm' with hm' | hm'
      · exact h.ephUniq i p e i' p' hm hp hm' hp'
      · cases hm'
        rw [hq] at hp'
        obtain ⟨n, hn, h'⟩ := h.ephHon i p e hm hp
        rw [h'] at hp'
        simp only [Option.some.injEq, Eph.hon.injEq] at hp'
        omega
    · cases hm
      rcases (mem _).1 hm' with hm' | hm'
      · rw [hq] at hp
        obtain ⟨n, hn, h'⟩ := h.ephHon i' p' e hm' hp'
        rw [h'] at hp
        simp only [Option.some.injEq, Eph.hon.injEq] at hp
        omega
      · cases hm'
        exact ⟨rfl, rfl⟩
  · intro k hm
    rw [hlk] at hm
    rw [hk]
    rcases h.leak k hm with h' | ⟨n, hn, hkn, h'⟩
    · exact .inl h'
    · refine .inr ⟨n, hn, hkn, ?_⟩
      intro i p e hm hp
      rcases (mem _).1 hm with hm | hm
      · exact h' i p e hm hp
      · cases hm
        rw [hq'] at hp
        cases hp

theorem LogInv.apply {w : World} (h : LogInv w) (sid node : Nat) {r : Res} (hr : Shape w.nextKey w.nextEph r) :
    LogInv (w.apply sid node r) := by
  cases hr with
  | quiet ho hk he hm =>
    have mem : ∀ i p, (i, p) ∈ (w.apply sid node r).log → (i, p) ∈ w.log ∨ (p.body.encap = none ∧ p.body.eph = none) := by
      intro i p hx
      simp only [World.apply, List.mem_append, List.mem_map, Prod.mk.injEq] at hx
      rcases hx with hx | ⟨q, hq, _, rfl⟩
      · exact .inl hx
      · exact .inr (ho q hq)
    have hk' : (w.apply sid node r).nextKey = w.nextKey := hk
    have he' : (w.apply sid node r).nextEph = w.nextEph := he
    have hl' : (w.apply sid node r).leaked = w.leaked := by simp [World.apply, hm]
    constructor
    · intro i p e k hx hp
      rcases mem i p hx with hx | ⟨h1, _⟩
      · rw [hk']; exact h.encKey i p e k hx hp
      · rw [h1] at hp; cases hp
    · intro i p e k i' p' e' hx hp hx' hp'
      rcases mem i p hx with hx | ⟨h1, _⟩
      · rcases mem i' p' hx' with hx' | ⟨h1, _⟩
        · exact h.encUniq i p e k i' p' e' hx hp hx' hp'
        · rw [h1] at hp'; cases hp'
      · rw [h1] at hp; cases hp
    · intro i p e hx hp
      rcases mem i p hx with hx | ⟨_, h1⟩
      · rw [he']; exact h.ephHon i p e hx hp
      · rw [h1] at hp; cases hp
    · intro i p e i' p' hx hp hx' hp'
      rcases mem i p hx with hx | ⟨_, h1⟩
      · rcases mem i' p' hx' with hx' | ⟨_, h1⟩
        · exact h.ephUniq i p e i' p' hx hp hx' hp'
        · rw [h1] at hp'; cases hp'
      · rw [h1] at hp; cases hp
    · intro k hk0
      rw [hl'] at hk0
      rw [hk']
      rcases h.leak k hk0 with h' | ⟨n, hn, hkn, h'⟩
      · exact .inl h'
      · refine .inr ⟨n, hn, hkn, ?_⟩
        intro i p e hx hp
        rcases mem i p hx with hx | ⟨h1, _⟩
        · exact h' i p e hx hp
        · rw [h1] at hp; cases hp
  | key e k hk hn he hm ho =>
    have mem : ∀ i p, (i, p) ∈ (w.apply sid node r).log → (i, p) ∈ w.log ∨
        (r.out = [p] ∧ i = sid ∧ p.body.encap = some (e, k) ∧ p.body.eph = none) := by
      intro i p hx
      simp only [World.apply, List.mem_append, List.mem_map, Prod.mk.injEq] at hx
      rcases hx with hx | ⟨q, hq, h1, h2⟩
      · exact .inl hx
      · subst h2
        rcases ho with ho | ⟨q', ho, h3, h4⟩
        · rw [ho] at hq; cases hq
        · rw [ho] at hq
          simp only [List.mem_singleton] at hq
          subst hq
          exact .inr ⟨ho, h1.symm, h3, h4⟩
    have hk' : (w.apply sid node r).nextKey = w.nextKey + 1 := hn
    have he' : (w.apply sid node r).nextEph = w.nextEph := he
    have hl' : ∀ k0, k0 ∈ (w.apply sid node r).leaked → k0 ∈ w.leaked ∨ (k0 = k ∧ ∃ m, e = .atk m) := by
      intro k0 h0
      simp only [World.apply, hm, List.mem_append, List.mem_filterMap, List.mem_singleton] at h0
      rcases h0 with h0 | ⟨x, rfl, h0⟩
      · exact .inl h0
      · cases e with
        | hon n => simp at h0
        | atk m =>
          simp only [Option.some.injEq] at h0
          exact .inr ⟨h0.symm, m, rfl⟩
    have fresh : ∀ i p e' , (i, p) ∈ w.log → p.body.encap = some (e', k) → False := by
      intro i p e' hx hp
      obtain ⟨n, hn, h'⟩ := h.encKey i p e' k hx hp
      rcases hk with rfl | rfl <;> rcases h' with h' | h' <;> cases h' <;> omega
    constructor
    · intro i p e' k' hx hp
      rw [hk']
      rcases mem i p hx with hx | ⟨_, _, h1, _⟩
      · obtain ⟨n, hn, h'⟩ := h.encKey i p e' k' hx hp
        exact ⟨n, by omega, h'⟩
      · rw [h1] at hp
        cases hp
        exact ⟨w.nextKey, by omega, hk⟩
    · intro i p e1 k' i' p' e' hx hp hx' hp'
      rcases mem i p hx with hx | ⟨h0, hi, h1, _⟩
      · rcases mem i' p' hx' with hx' | ⟨h0, hi, h1, _⟩
        · exact h.encUniq i p e1 k' i' p' e' hx hp hx' hp'
        · rw [h1] at hp'
          cases hp'
          exact (fresh i p _ hx hp).elim
      · rcases mem i' p' hx' with hx' | ⟨h0', hi', _, _⟩
        · rw [h1] at hp
          cases hp
          exact (fresh i' p' _ hx' hp').elim
        · rw [h0] at h0'
          cases h0'
          exact ⟨hi.trans hi'.symm, rfl⟩
    · intro i p e' hx hp
      rcases mem i p hx with hx | ⟨_, _, _, h1⟩
      · rw [he']; exact h.ephHon i p e' hx hp
      · rw [h1] at hp; cases hp
    · intro i p e1 i' p' hx hp hx' hp'
      rcases mem i p hx with hx | ⟨_, _, _, h1⟩
      · rcases mem i' p' hx' with hx' | ⟨_, _, _, h1⟩
        · exact h.ephUniq i p e1 i' p' hx hp hx' hp'
        · rw [h1] at hp'; cases hp'
      · rw [h1] at hp; cases hp
    · intro k0 h0
      rw [hk']
      rcases hl' k0 h0 with h0 | ⟨rfl, m, rfl⟩
      · rcases h.leak k0 h0 with ⟨n, hn, h'⟩ | ⟨n, hn, hkn, h'⟩
        · exact .inl ⟨n, by omega, h'⟩
        · refine .inr ⟨n, by omega, hkn, ?_⟩
          intro i p e' hx hp
          rcases mem i p hx with hx | ⟨_, _, h1, _⟩
          · exact h' i p e' hx hp
          · rw [h1] at hp
            cases hp
            rw [hkn] at hk
            rcases hk with hk | hk <;> cases hk
            omega
      · rcases hk with rfl | rfl
        · exact .inl ⟨_, by omega, rfl⟩
        · refine .inr ⟨_, by omega, rfl, ?_⟩
          intro i p e' hx hp
          rcases mem i p hx with hx | ⟨_, _, h1, _⟩
          · exact (fresh i p _ hx hp).elim
          · rw [h1] at hp
            cases hp
            exact ⟨m, rfl⟩
  | eph q ho hq hq' hk he hm =>
    exact h.addEph sid q (by simp [World.apply, ho]) hq hq' hk he (by simp [World.apply, hm])

/-! ### Steps -/

/-- What an event can do to the world. -/
inductive StepCase (P : Prims) (w : World) : Ev → World → Prop
  | store (ev : Ev) (w' : World) (h1 : w'.sess = w.sess) (h2 : w'.log = w.log) (h3 : w'.nextKey = w.nextKey)
      (h4 : w'.nextEph = w.nextEph) (h5 : w'.leaked = w.leaked)
      (hst : ∀ n c a, (w'.store n).get c = some a → (w.store n).get c = some a) : StepCase P w ev w'
  | steal (n : Nat) (hn : n < w.nextKey) : StepCase P w (.steal n) { w with leaked := .dev n :: w.leaked }
  | accept (node : Nat) :
      StepCase P w (.accept node)
        { w with sess := w.sess ++ [{ node := node, kind := .server, state := .socketJustOpened }] }
  | login (node : Nat) (cid : Cid) (pw : List Nat) (t : Nat) (udp : Bool) (a : Acct) (r : Ratchet)
      (hg : (w.store node).get cid = some a) (hs : a.static = some r) :
      StepCase P w (.login node cid pw t udp)
        { w with
          sess := w.sess ++ [{ node := node, kind := .login, state := .needsConnect, cid := some a.cid, ticket := t,
                               creds := some (connectCreds P a.auth pw),
                               transientMode := some (match connectCreds P a.auth pw with | .disabled _ => true | _ => false)
                               udp := udp, cnac := some a, preStage := .synAck, preEph := some (.hon w.nextEph, a.cid) }]
          nextEph := w.nextEph + 1
          log := w.log ++ [(w.sess.length, r.protect r.cid t (.syn (.hon w.nextEph) udp))] }
  | transient (node : Nat) (user : Name) (t : Nat) (udp : Bool) :
      StepCase P w (.transient node user t udp)
        { w with
          sess := w.sess ++ [{ node := node, kind := .transient, state := .needsRegister, ticket := t,
                               creds := some (.disabled user), transientMode := some true, udp := udp,
                               regEph := some (.hon w.nextEph, P.cidOf user) }]
          nextEph := w.nextEph + 1
          log := w.log ++ [(w.sess.length, plain (P.cidOf user) t (.regStage0 (.hon w.nextEph) true))] }
  | register (node : Nat) (full user : Name) (pw : List Nat) (t salt : Nat) :
      StepCase P w (.register node full user pw t salt)
        { w with
          sess := w.sess ++ [{ node := node, kind := .register, state := .needsRegister, ticket := t,
                               creds := some (newRegister P full user pw salt), salt := salt, transientMode := some false,
                               regEph := some (.hon w.nextEph, P.cidOf (newRegister P full user pw salt).user) }]
          nextEph := w.nextEph + 1
          log := w.log ++ [(w.sess.length, plain (P.cidOf (newRegister P full user pw salt).user) t
            (.regStage0 (.hon w.nextEph) false))] }
  | recv (sid : Nat) (p : Pkt) (o : Oracle) (s : Sess) (r : Res) (hs : w.sess[sid]? = some s) (ho : s.over = false)
      (hp : w.CanSend p) (hr : RecvCase (w.store s.node) s p o w.nextKey w.nextEph r) :
      StepCase P w (.recv sid p o) (w.apply sid s.node r)
  | resume (sid i : Nat) (o : Oracle) (s : Sess) (k : Pend) (r : Res) (hs : w.sess[sid]? = some s) (ho : s.over = false)
      (hk : s.pend[i]? = some k)
      (hr : ResumeCase P (w.store s.node) { s with pend := s.pend.eraseIdx i } o w.nextKey w.nextEph k r) :
      StepCase P w (.resume sid i o) (w.apply sid s.node r)
  | stop (sid : Nat) (s : Sess) (hs : w.sess[sid]? = some s) :
      StepCase P w (.stop sid) { w with sess := w.sess.set sid s.stop }

theorem find?_filter_ne {α : Type} (l : List (Nat × α)) (n m : Nat) (h : m ≠ n) :
    (l.filter (·.1 ≠ n)).find? (·.1 = m) = l.find? (·.1 = m) := by
  induction l with
  | nil => rfl
  | cons x t ih =>
    by_cases h1 : x.1 = n
    · have h2 : ¬ x.1 = m := fun h2 => h (h2.symm.trans h1)
      rw [List.filter_cons_of_neg (by simp [h1]), ih, List.find?_cons_of_neg (by simp [h2])]
    · rw [List.filter_cons_of_pos (by simp [h1])]
      by_cases h2 : x.1 = m
      · rw [List.find?_cons_of_pos (by simp [h2]), List.find?_cons_of_pos (by simp [h2])]
      · rw [List.find?_cons_of_neg (by simp [h2]), List.find?_cons_of_neg (by simp [h2]), ih]

theorem store_setStore (w : World) (n m : Nat) (st : Store) :
    (w.setStore n st).store m = if m = n then st else w.store m := by
  unfold World.setStore World.store
  by_cases h : m = n
  · subst h
    simp
  · have := find?_filter_ne w.stores n m h
    simp only [List.find?_cons, show ¬ n = m by omega, decide_false, h, if_false, this]

theorem Store.get_put (st : Store) (a : Acct) (c : Cid) :
    (st.put a).get c = if c = a.cid then some a else st.get c := by
  unfold Store.put Store.get
  by_cases h : c = a.cid
  · subst h
    simp
  · have := find?_filter_ne st.accts a.cid c h
    simp only [List.find?_cons, decide_eq_false (fun h' : a.cid = c => h h'.symm), h, if_false, this]

theorem Store.get_del {st : Store} {c d : Cid} {a : Acct} (h : (st.del d).get c = some a) : st.get c = some a := by
  unfold Store.del Store.get at h
  unfold Store.get
  by_cases h' : c = d
  · subst h'
    simp only [Option.map_eq_some_iff] at h
    obtain ⟨x, hx, _⟩ := h
    have h1 := List.find?_some hx
    have h2 := List.mem_of_find?_eq_some hx
    simp only [List.mem_filter, decide_eq_true_eq] at h1 h2
    exact absurd h1 h2.2
  · rw [find?_filter_ne st.accts d c h'] at h
    exact h

theorem Store.get_del_ne (st : Store) {c d : Cid} (h : d ≠ c) : (st.del d).get c = st.get c := by
  unfold Store.del Store.get
  rw [find?_filter_ne _ _ _ (fun h' => h h'.symm)]

theorem step_cases (P : Prims) (w : World) (ev : Ev) (ha : w.Allowed ev) : StepCase P w ev (w.step P ev) := by
  have same : ∀ ev, StepCase P w ev w := fun ev => .store ev w rfl rfl rfl rfl rfl (fun _ _ _ h => h)
  cases ev with
  | accept node => exact .accept node
  | login node cid pw t udp =>
    simp only [World.step]
    split
    · exact same _
    · rename_i a hg
      cases hs : a.static with
      | none => simp only [beginConnect, hs]; exact same _
      | some r => simp only [beginConnect, hs]; exact .login node cid pw t udp a r hg hs
  | transient node user t udp => exact .transient node user t udp
  | register node full user pw t salt => exact .register node full user pw t salt
  | recv sid p o =>
    simp only [World.step]
    split
    · exact same _
    · rename_i s hs
      split
      · exact same _
      · rename_i ho
        exact .recv sid p o s _ hs (by simpa using ho) ha (recv_cases _ _ _ _ _ _)
  | resume sid i o =>
    simp only [World.step]
    split
    · exact same _
    · rename_i s hs
      split
      · exact same _
      · rename_i k hk
        split
        · exact same _
        · rename_i ho
          exact .resume sid i o s k _ hs (by simpa using ho) hk (resume_cases _ _ _ _ _ _ _)
  | stop sid =>
    simp only [World.step]
    split
    · exact same _
    · rename_i s hs
      exact .stop sid s hs
  | remove node cid =>
    refine .store _ _ rfl rfl rfl rfl rfl ?_
    intro n c a h
    simp only [World.step] at h
    rw [store_setStore] at h
    split at h
    · rename_i hn
      subst hn
      exact Store.get_del h
    · exact h
  | forbidTransient node =>
    refine .store _ _ rfl rfl rfl rfl rfl ?_
    intro n c a h
    simp only [World.step] at h
    rw [store_setStore] at h
    split at h
    · rename_i hn
      subst hn
      exact h
    · exact h
  | steal n => exact .steal n ha

theorem StepCase.ext {P : Prims} {w w' : World} {ev : Ev} (h : StepCase P w ev w') : Ext w w' := by
  cases h with
  | store _ _ h1 h2 h3 h4 h5 hst => exact ⟨fun x hx => by rw [h2]; exact hx, fun k hk => by rw [h5]; exact hk⟩
  | steal n hn => exact ⟨fun x hx => hx, fun k hk => List.mem_cons_of_mem _ hk⟩
  | accept => exact ⟨fun x hx => hx, fun k hk => hk⟩
  | login => exact ⟨fun x hx => List.mem_append_left _ hx, fun k hk => hk⟩
  | transient => exact ⟨fun x hx => List.mem_append_left _ hx, fun k hk => hk⟩
  | register => exact ⟨fun x hx => List.mem_append_left _ hx, fun k hk => hk⟩
  | recv => exact ext_apply _ _ _ _
  | resume => exact ext_apply _ _ _ _
  | stop => exact ⟨fun x hx => hx, fun k hk => hk⟩

theorem LogInv.step {P : Prims} {w w' : World} {ev : Ev} (h : LogInv w) (hc : StepCase P w ev w') : LogInv w' := by
  cases hc with
  | store _ _ h1 h2 h3 h4 h5 hst => exact h.congr h2 h5 h3 h4
  | steal n hn =>
    obtain ⟨a, b, c, d, e⟩ := h
    refine ⟨a, b, c, d, ?_⟩
    intro k hk
    rcases List.mem_cons.1 hk with rfl | hk
    · exact .inl ⟨n, hn, rfl⟩
    · exact e k hk
  | accept => exact h.congr rfl rfl rfl rfl
  | login => exact h.addEph _ _ rfl rfl rfl rfl rfl rfl
  | transient => exact h.addEph _ _ rfl rfl rfl rfl rfl rfl
  | register => exact h.addEph _ _ rfl rfl rfl rfl rfl rfl
  | recv sid p o s r hs ho hp hr => exact h.apply sid s.node hr.shape
  | resume sid i o s k r hs ho hk hr => exact h.apply sid s.node hr.shape
  | stop => exact h.congr rfl rfl rfl rfl

theorem Run.logInv {P : Prims} {evs : List Ev} {w : World} (h : Run P evs w) : LogInv w := by
  induction h with
  | init => exact LogInv.init
  | step _ ha ih => exact ih.step (step_cases P _ _ ha)

end Verif.Login

import Verif.Login.Props
import Verif.Login.Runs
/-!
Attacks on registration and login, and the honest run.
-/
namespace Verif.Login

/-- Simple hash functions for concrete runs. White space is the character 32. -/
def toy : Prims := ⟨fun l => l.foldl (· + ·) 0, fun s _ h => 1000 * s + h, List.length, (· == 32), fun _ _ => true⟩

/-- User `[65, 65]` (CID 2) of node 1 registers with node 0 and password `[80]`, undisturbed. Sessions 0 and 1. -/
def regEvs : List Ev :=
  [.accept 0, .register 1 [70] [65, 65] [80] 7 9,
   .recv 0 ⟨none, 2, 7, .regStage0 (.hon 0) false⟩ yes, .resume 0 0 yes,
   .recv 1 ⟨none, 2, 7, .regStage1 (.hon 0) (.dev 0)⟩ yes, .resume 1 0 yes,
   .recv 0 ⟨some ⟨.dev 0, true⟩, 2, 7, .regStage2 (.enabled [65, 65] [70] 9080)⟩ yes, .resume 0 0 yes,
   .recv 1 ⟨some ⟨.dev 0, false⟩, 2, 7, .regSuccess⟩ yes, .resume 1 0 yes]

/-- Then the user logs in, undisturbed. Sessions 2 (server) and 3. -/
def loginEvs : List Ev :=
  [.accept 0, .login 1 2 [80] 11 false,
   .recv 2 ⟨some ⟨.dev 0, true⟩, 2, 11, .syn (.hon 1) false⟩ yes, .resume 2 0 yes,
   .recv 3 ⟨some ⟨.dev 0, false⟩, 2, 11, .synAck (.hon 1) (.sess 1)⟩ yes,
   .recv 2 ⟨some ⟨.sess 1, true⟩, 2, 11, .preStage0⟩ yes,
   .recv 3 ⟨some ⟨.sess 1, false⟩, 2, 11, .beginConnect⟩ yes,
   .recv 2 ⟨some ⟨.sess 1, true⟩, 2, 11, .connStage0 (.enabled [65, 65] [70] 9080)⟩ yes, .resume 2 0 yes, .resume 2 0 yes,
   .recv 3 ⟨some ⟨.sess 1, false⟩, 2, 11, .connSuccess⟩ yes,
   .recv 2 ⟨some ⟨.sess 1, true⟩, 2, 11, .connSuccessAck⟩ yes]

/-- The hypotheses of C99, C100, C101, C102, C105 and C106 are met by an honest login. -/
theorem honest_example :
    ∃ w, Run toy (regEvs ++ loginEvs) w ∧ ∃ (s c : Sess) (a a' : Acct) (r r' : Ratchet),
      w.sess[2]? = some s ∧ w.sess[3]? = some c ∧ s.kind = .server ∧ c.kind = .login ∧ s.state = .connected ∧
      s.channel = some 2 ∧ c.channel = some 2 ∧ Under s a r ∧ Under c a' r' ∧
      a.auth = .server [65, 65] [70] 0 9080 ∧ r.key = .dev 0 ∧ r.alice = false ∧
      r'.key = .dev 0 ∧ ¬ w.Known (.dev 0) ∧ NoSyn (regEvs ++ loginEvs) 3 ∧
      (∃ m, (3, m) ∈ w.log ∧ m.body = .connStage0 (.enabled [65, 65] [70] 9080)) ∧
      deliveries 2 Body.isSyn (regEvs ++ loginEvs) ≤ 1 ∧ deliveries 2 Body.isConn (regEvs ++ loginEvs) ≤ 1 := by
  refine ⟨_, run_of_runnable (by decide +kernel), ?_⟩
  refine ⟨_, _, _, _, _, _, rfl, rfl, rfl, rfl, rfl, rfl, rfl, ⟨rfl, rfl⟩, ⟨rfl, rfl⟩, rfl, rfl, rfl, rfl,
    ?_, ?_, ?_, ?_, ?_⟩
  · rw [← World.known_iff]; decide +kernel
  · intro p o hp e u hb
    have : ∀ ev ∈ regEvs ++ loginEvs, (match ev with
        | .recv sid p _ => decide (sid ≠ 3) || (match p.body with | .syn _ _ => false | _ => true)
        | _ => true) = true := by decide +kernel
    have := this _ hp
    simp [hb] at this
  · exact ⟨⟨some ⟨.sess 1, true⟩, 2, 11, .connStage0 (.enabled [65, 65] [70] 9080)⟩, by decide +kernel, rfl⟩
  · decide +kernel
  · decide +kernel

/-! ### C99: the password is needed -/

def Delivered (evs : List Ev) (c : Creds) : Prop := ∃ sid p o, Ev.recv sid p o ∈ evs ∧ p.body = .connStage0 c

/-- The attacker has the long-term key and logs in to session 2 without a password. -/
def bypassEvs : List Ev :=
  [.steal 0, .accept 0,
   .recv 2 ⟨some ⟨.dev 0, true⟩, 2, 11, .syn (.atk 0) false⟩ yes, .resume 2 0 yes,
   .recv 2 ⟨some ⟨.sess 1, true⟩, 2, 11, .preStage0⟩ yes,
   .recv 2 ⟨some ⟨.sess 1, true⟩, 2, 11, .connStage0 (.disabled [65, 65])⟩ yes, .resume 2 0 yes, .resume 2 0 yes]

/-- C99 fails: with a stolen long-term key the account, which has a password, is entered without any password: no
credentials with a password hash are delivered to any session. -/
theorem C99_counterexample_disabled_credentials :
    ∃ w, Run toy (regEvs ++ bypassEvs) w ∧ ∃ (s : Sess) (a : Acct), w.sess[2]? = some s ∧ s.kind = .server ∧
      s.state = .connected ∧ s.cnac = some a ∧ a.auth = .server [65, 65] [70] 0 9080 ∧
      ¬ ∃ u f h, Delivered (regEvs ++ bypassEvs) (.enabled u f h) := by
  refine ⟨_, run_of_runnable (by decide +kernel), _, _, rfl, rfl, rfl, rfl, rfl, ?_⟩
  rintro ⟨u, f, h, sid, p, o, hp, hb⟩
  have : ∀ ev ∈ regEvs ++ bypassEvs, (match ev with
      | .recv _ p _ => (match p.body with | .connStage0 (.enabled _ _ _) => false | _ => true)
      | _ => true) = true := by decide +kernel
  have := this _ hp
  simp [hb] at this

/-! ### C101 and C102: a fake server -/

/-- A user tries to log in (session 2). The attacker answers on that connection with a registration of its own, a SYN for
the account it just made, and plays the server's part. -/
def fakeEvs : List Ev :=
  [.login 1 2 [80] 11 false,
   .recv 2 ⟨none, 5, 1, .regStage0 (.atk 0) false⟩ yes, .resume 2 0 yes,
   .recv 2 ⟨some ⟨.dev 1, true⟩, 5, 1, .regStage2 (.enabled [66, 66, 66] [66] 3)⟩ yes, .resume 2 0 yes,
   .recv 2 ⟨some ⟨.dev 1, true⟩, 3, 11, .syn (.atk 0) true⟩ yes, .resume 2 0 yes,
   .recv 2 ⟨some ⟨.sess 2, true⟩, 0, 11, .preStage0⟩ yes, .resume 2 0 yes,
   .recv 2 ⟨some ⟨.sess 2, true⟩, 0, 11, .beginConnect⟩ yes,
   .recv 2 ⟨some ⟨.sess 2, true⟩, 2, 11, .connSuccess⟩ yes]

/-- C101 fails: the login session has a channel for its own CID, although no server session exists besides the one of the
registration, and the attacker knows neither the user's long-term key nor any key of the server. -/
theorem C101_counterexample_fake_server :
    ∃ w, Run toy (regEvs ++ fakeEvs) w ∧ ∃ (s : Sess), w.sess[2]? = some s ∧ s.kind = .login ∧ s.state = .connected ∧
      s.channel = some 2 ∧ ¬ w.Known (.dev 0) ∧ (∀ sv k, ¬ Welcomed w sv k) ∧
      (∀ (i : Nat) (s' : Sess), w.sess[i]? = some s' → s'.kind = .server → i = 0 ∧ s'.ratchet = none) := by
  refine ⟨_, run_of_runnable (by decide +kernel), _, rfl, rfl, rfl, rfl, ?_, ?_, ?_⟩
  · rw [← World.known_iff]; decide +kernel
  · rintro sv k ⟨m, hm, hb, _⟩
    have : ∀ x ∈ (World.init.steps toy (regEvs ++ fakeEvs)).log, x.2.body ≠ .connSuccess := by decide +kernel
    exact this _ hm hb
  · intro i s' hs hk
    have hlen : (World.init.steps toy (regEvs ++ fakeEvs)).sess.length = 3 := by decide +kernel
    have hi : i < 3 := by
      rw [← hlen]
      rcases List.getElem?_eq_some_iff.1 hs with ⟨h, _⟩; exact h
    have h0 : ((World.init.steps toy (regEvs ++ fakeEvs)).sess[0]?.map fun s => s.ratchet) = some none := by decide +kernel
    have h1 : ((World.init.steps toy (regEvs ++ fakeEvs)).sess[1]?.map fun s => s.kind) = some .register := by
      decide +kernel
    have h2 : ((World.init.steps toy (regEvs ++ fakeEvs)).sess[2]?.map fun s => s.kind) = some .login := by decide +kernel
    match i, hi with
    | 0, _ =>
      rw [hs] at h0
      exact ⟨rfl, by simpa using h0⟩
    | 1, _ =>
      rw [hs] at h1
      simp [hk] at h1
    | 2, _ =>
      rw [hs] at h2
      simp [hk] at h2

/-- C102 fails: the login session sends the credentials of the user's account under a key that the attacker has. -/
theorem C102_counterexample_fake_server :
    ∃ w, Run toy (regEvs ++ fakeEvs) w ∧ ∃ (s : Sess) (m : Pkt) (k : KeyId), w.sess[2]? = some s ∧ s.kind = .login ∧
      ¬ w.Known (.dev 0) ∧ (2, m) ∈ w.log ∧ m.body = .connStage0 (.enabled [65, 65] [70] 9080) ∧
      m.sealed = some ⟨k, false⟩ ∧ w.Known k := by
  refine ⟨_, run_of_runnable (by decide +kernel), _,
    ⟨some ⟨.sess 2, false⟩, 3, 11, .connStage0 (.enabled [65, 65] [70] 9080)⟩, .sess 2, rfl, rfl, ?_, ?_, rfl, rfl, ?_⟩
  · rw [← World.known_iff]; decide +kernel
  · decide +kernel
  · rw [← World.known_iff]; decide +kernel

/-! ### C103: a client overwrites an account -/

/-- The user registers the same name again, with another server (node 7). Sessions 2 and 3. -/
def againEvs : List Ev :=
  [.accept 7, .register 1 [71] [65, 65] [81] 8 4,
   .recv 2 ⟨none, 2, 8, .regStage0 (.hon 1) false⟩ yes, .resume 2 0 yes,
   .recv 3 ⟨none, 2, 8, .regStage1 (.hon 1) (.dev 1)⟩ yes, .resume 3 0 yes,
   .recv 2 ⟨some ⟨.dev 1, true⟩, 2, 8, .regStage2 (.enabled [65, 65] [71] 4081)⟩ yes, .resume 2 0 yes,
   .recv 3 ⟨some ⟨.dev 1, false⟩, 2, 8, .regSuccess⟩ yes]

/-- C103 fails: a client that registers a name with a second server loses its account with the first: the next step
replaces the long-term key. -/
theorem C103_counterexample_client_overwrites :
    ∃ w, Run toy (regEvs ++ againEvs) w ∧ ∃ a a' : Acct, (w.store 1).get 2 = some a ∧
      ((w.step toy (.resume 3 0 yes)).store 1).get 2 = some a' ∧ a ≠ a' ∧
      a.static = some ⟨.dev 0, true, 2⟩ ∧ a'.static = some ⟨.dev 1, true, 2⟩ := by
  exact ⟨_, run_of_runnable (by decide +kernel), _, _, rfl, rfl, by decide +kernel, rfl, rfl⟩

/-- The hypotheses of C103 are met: a server session answers a registration of a name that is taken. -/
example : ∃ evs w, Run toy evs w ∧ ∃ (a : Acct) (s : Sess), (w.store 0).get 2 = some a ∧ w.sess[2]? = some s ∧
    s.kind = .server ∧ s.pend ≠ [] :=
  ⟨_, _, run_of_runnable (evs := regEvs ++ [.accept 0, .recv 2 ⟨none, 2, 8, .regStage0 (.atk 1) false⟩ yes, .resume 2 0 yes,
    .recv 2 ⟨some ⟨.dev 1, true⟩, 2, 8, .regStage2 (.enabled [65, 65] [71] 4081)⟩ yes]) (by decide +kernel), _, _, rfl, rfl,
    rfl, by decide +kernel⟩

/-! ### C105: panics -/

/-- The attacker registers two accounts (CIDs 2 and 3) with node 0. Sessions 0 and 1. -/
def twoAccounts : List Ev :=
  [.accept 0, .recv 0 ⟨none, 2, 1, .regStage0 (.atk 0) false⟩ yes, .resume 0 0 yes,
   .recv 0 ⟨some ⟨.dev 0, true⟩, 2, 1, .regStage2 (.enabled [66, 66] [66] 3)⟩ yes, .resume 0 0 yes,
   .accept 0, .recv 1 ⟨none, 3, 1, .regStage0 (.atk 1) false⟩ yes, .resume 1 0 yes,
   .recv 1 ⟨some ⟨.dev 1, true⟩, 3, 1, .regStage2 (.enabled [67, 67, 67] [67] 3)⟩ yes, .resume 1 0 yes]

/-- C105 fails: two SYNs in one session, for two accounts. -/
theorem C105_counterexample_two_syns :
    ∃ evs w, Run toy evs w ∧ ∃ s : Sess, w.sess[2]? = some s ∧ s.kind = .server ∧ s.panicked = true ∧
      deliveries 2 Body.isSyn evs = 2 ∧ deliveries 2 Body.isConn evs = 0 :=
  ⟨_, _, run_of_runnable (evs := twoAccounts ++ [.accept 0,
    .recv 2 ⟨some ⟨.dev 0, true⟩, 2, 1, .syn (.atk 2) false⟩ yes, .resume 2 0 yes,
    .recv 2 ⟨some ⟨.dev 1, true⟩, 3, 1, .syn (.atk 3) false⟩ yes, .resume 2 0 yes]) (by decide +kernel), _, rfl, rfl, rfl,
    by decide +kernel, by decide +kernel⟩

/-- C105 fails: credentials sent twice, without waiting for the answer. -/
theorem C105_counterexample_two_stage0 :
    ∃ evs w, Run toy evs w ∧ ∃ s : Sess, w.sess[2]? = some s ∧ s.kind = .server ∧ s.panicked = true ∧
      deliveries 2 Body.isSyn evs = 1 ∧ deliveries 2 Body.isConn evs = 2 :=
  ⟨_, _, run_of_runnable (evs := twoAccounts ++ [.accept 0,
    .recv 2 ⟨some ⟨.dev 0, true⟩, 2, 1, .syn (.atk 2) false⟩ yes, .resume 2 0 yes,
    .recv 2 ⟨some ⟨.sess 2, true⟩, 2, 1, .preStage0⟩ yes,
    .recv 2 ⟨some ⟨.sess 2, true⟩, 2, 1, .connStage0 (.enabled [66, 66] [66] 3)⟩ yes,
    .recv 2 ⟨some ⟨.sess 2, true⟩, 2, 1, .connStage0 (.enabled [66, 66] [66] 3)⟩ yes,
    .resume 2 0 yes, .resume 2 0 yes]) (by decide +kernel), _, rfl, rfl, rfl, by decide +kernel, by decide +kernel⟩

/-- C105 fails: a SYN for the local account, without any key. The session manager lets it pass because the session has been
taken out of the provisional ones after a failed registration (the name was taken). -/
theorem C105_counterexample_local_account :
    ∃ evs w, Run toy evs w ∧ ∃ s : Sess, w.sess[2]? = some s ∧ s.kind = .server ∧ s.panicked = true ∧
      deliveries 2 Body.isSyn evs = 1 ∧ deliveries 2 Body.isConn evs = 0 :=
  ⟨_, _, run_of_runnable (evs := twoAccounts ++ [.accept 0,
    .recv 2 ⟨none, 2, 1, .regStage0 (.atk 2) false⟩ yes, .resume 2 0 yes,
    .recv 2 ⟨some ⟨.dev 2, true⟩, 2, 1, .regStage2 (.enabled [66, 66] [66] 3)⟩ yes, .resume 2 0 yes,
    .recv 2 ⟨none, 0, 1, .syn (.atk 3) false⟩ yes, .resume 2 0 yes]) (by decide +kernel), _, rfl, rfl, rfl,
    by decide +kernel, by decide +kernel⟩

/-! ### C106: the name of a channel -/

/-- C106 fails: the owner of account 2 gets a channel of the server that is named after account 3. -/
theorem C106_counterexample_foreign_name :
    ∃ evs w, Run toy evs w ∧ ∃ (s : Sess) (a : Acct), w.sess[2]? = some s ∧ s.kind = .server ∧ s.state = .connected ∧
      s.cnac = some a ∧ a.cid = 2 ∧ s.cid = some 2 ∧ s.channel = some 3 ∧ ((w.store 0).get 3).isSome :=
  ⟨_, _, run_of_runnable (evs := twoAccounts ++ [.accept 0,
    .recv 2 ⟨some ⟨.dev 0, true⟩, 2, 1, .syn (.atk 2) false⟩ yes, .resume 2 0 yes,
    .recv 2 ⟨some ⟨.sess 2, true⟩, 2, 1, .preStage0⟩ yes,
    .recv 2 ⟨some ⟨.sess 2, true⟩, 3, 1, .connStage0 (.enabled [66, 66] [66] 3)⟩ yes, .resume 2 0 yes, .resume 2 0 yes,
    .recv 2 ⟨some ⟨.sess 2, true⟩, 2, 1, .connSuccessAck⟩ yes]) (by decide +kernel), _, _, rfl, rfl, rfl, rfl, rfl, rfl, rfl,
    by decide +kernel⟩

/-! ### C104: the password one registered with works -/

theorem dropWhile_idem (ws : Nat → Bool) (l : List Nat) : (l.dropWhile ws).dropWhile ws = l.dropWhile ws := by
  induction l with
  | nil => rfl
  | cons x l ih =>
    cases h : ws x with
    | true => simp only [List.dropWhile_cons, h, if_true]; exact ih
    | false => simp [h]

theorem dropWhile_head (ws : Nat → Bool) (l : List Nat) :
    l.dropWhile ws = [] ∨ ∃ x t, l.dropWhile ws = x :: t ∧ ws x = false := by
  induction l with
  | nil => exact .inl rfl
  | cons x l ih =>
    cases h : ws x with
    | true => simp only [List.dropWhile_cons, h, if_true]; exact ih
    | false => exact .inr ⟨x, l, by simp [h], h⟩

theorem dropWhile_append_last (ws : Nat → Bool) (l : List Nat) (x : Nat) (h : ws x = false) :
    ∃ d, (l ++ [x]).dropWhile ws = d ++ [x] := by
  induction l with
  | nil => exact ⟨[], by simp [h]⟩
  | cons y l ih =>
    obtain ⟨d, hd⟩ := ih
    cases hy : ws y with
    | true => exact ⟨d, by simp only [List.cons_append, List.dropWhile_cons, hy, if_true]; exact hd⟩
    | false => exact ⟨y :: l, by simp [hy]⟩

theorem trim_idem (ws : Nat → Bool) (l : List Nat) : trim ws (trim ws l) = trim ws l := by
  unfold trim
  rcases dropWhile_head ws l with h | ⟨x, t, h, hx⟩
  · rw [h]; rfl
  · rw [h]
    simp only [List.reverse_cons]
    obtain ⟨d, hd⟩ := dropWhile_append_last ws t.reverse x hx
    have h2 := dropWhile_idem ws (t.reverse ++ [x])
    rw [hd] at h2 ⊢
    simp only [List.reverse_append, List.reverse_cons, List.reverse_nil, List.nil_append, List.singleton_append,
      List.dropWhile_cons, hx, Bool.false_eq_true, if_false, List.reverse_reverse]
    rw [h2]
    simp

/-- C104, for passwords without white space at the ends: after an undisturbed registration the user logs in with the
password they registered with, for all names, passwords, salts and hash functions. Missing: other passwords, see
`C104_counterexample_blank`. -/
theorem C104_password_works_partial (P : Prims) (x : Entry) (h : x.Acceptable P)
    (hp : trim P.ws x.password = x.password) : LoggedIn (thenLogin P x x.password) := by
  obtain ⟨h1, h2, h3⟩ := h
  have h4 := Ne.symm h3
  unfold thenLogin registration
  simp [World.step, World.relay, World.goOn, World.init, World.apply, recv, recvRegister, plain, World.store, World.setStore,
    Store.new, yes, newRegister, Creds.user, Sess.suspend, resume, Ratchet.protect, Ratchet.opens, registerImpersonal,
    registerPersonal, deriveServer, Auth.user, Auth.full, Store.get, Store.put, h1, h2, h3, h4, Ne.symm h1, beginConnect,
    recvPreconnect, recvConnect, Sess.provisional, Sess.stop, intoAuthStore, connectCreds, validate, validateArgon, LoggedIn,
    hp, trim_idem]

/-- What works is exactly the trimmed password, up to collisions of the hash functions. -/
theorem C104_exactly_trimmed (P : Prims) (x : Entry) (h : x.Acceptable P) (password : List Nat)
    (hl : LoggedIn (thenLogin P x password)) :
    P.argon x.salt' (trim P.ws x.user) (P.argon x.salt (trim P.ws x.full) (P.sha password)) =
      P.argon x.salt' (trim P.ws x.user) (P.argon x.salt (trim P.ws x.full) (P.sha (trim P.ws x.password))) := by
  refine Decidable.byContradiction fun hne => ?_
  obtain ⟨h1, h2, h3⟩ := h
  have h4 := Ne.symm h3
  unfold thenLogin registration at hl
  simp [World.step, World.relay, World.goOn, World.init, World.apply, recv, recvRegister, plain, World.store, World.setStore,
    Store.new, yes, newRegister, Creds.user, Sess.suspend, resume, Ratchet.protect, Ratchet.opens, registerImpersonal,
    registerPersonal, deriveServer, Auth.user, Auth.full, Store.get, Store.put, h1, h2, h3, h4, Ne.symm h1, beginConnect,
    recvPreconnect, recvConnect, Sess.provisional, Sess.stop, intoAuthStore, connectCreds, validate, validateArgon, LoggedIn,
    trim_idem, hne] at hl

/-- C104 fails: a password that ends in a blank is accepted at registration, and the login with it is refused. -/
theorem C104_counterexample_blank :
    ∃ x : Entry, x.Acceptable toy ∧ x.password = [80, 32] ∧ ¬ LoggedIn (thenLogin toy x x.password) ∧
      LoggedIn (thenLogin toy x [80]) := by
  have ha : Entry.Acceptable toy ⟨0, 1, [70], [65, 65], [80, 32], 9, 5, 7, 11⟩ :=
    ⟨by decide +kernel, by decide +kernel, by decide +kernel⟩
  refine ⟨⟨0, 1, [70], [65, 65], [80, 32], 9, 5, 7, 11⟩, ha, rfl, ?_, ?_⟩
  · intro h
    have := C104_exactly_trimmed _ _ ha _ h
    revert this
    decide +kernel
  · exact ⟨_, _, rfl, rfl, rfl, rfl, by decide +kernel, rfl⟩

example : Entry.Acceptable toy ⟨0, 1, [70], [65, 65], [80], 9, 5, 7, 11⟩ ∧ trim toy.ws [80] = [80] :=
  ⟨⟨by decide +kernel, by decide +kernel, by decide +kernel⟩, by decide +kernel⟩

/-- A connection without password works: both sides are connected and have the channel of the new account. -/
theorem C104_transient_works (P : Prims) (server client : Nat) (user : Name) (ticket salt : Nat)
    (h1 : P.cidOf user ≠ 0) (h3 : server ≠ client)
    (h2 : P.okNames user authlessName = true) :
    ∃ s c : Sess, (transientLogin P server client user ticket salt).sess = [s, c] ∧ s.state = .connected ∧
      c.state = .connected ∧ s.channel = some (P.cidOf user) ∧ c.channel = some (P.cidOf user) := by
  have h4 := Ne.symm h3
  unfold transientLogin
  simp [World.step, World.relay, World.goOn, World.init, World.apply, recv, recvRegister, plain, World.store, World.setStore,
    Store.new, yes, Creds.user, Sess.suspend, resume, Ratchet.protect, Ratchet.opens, registerImpersonal,
    registerPersonal, deriveServer, Auth.user, Auth.full, Store.get, Store.put, h1, h2, h3, h4, Ne.symm h1, beginConnect,
    recvPreconnect, recvConnect, Sess.provisional, intoAuthStore, validate]
  exact ⟨_, _, ⟨rfl, rfl⟩, rfl, rfl, rfl, rfl⟩

example : toy.cidOf [65, 65] ≠ 0 ∧ toy.okNames [65, 65] authlessName = true := by decide +kernel

end Verif.Login

import Verif.Backends.Props
/-
C152: what the stores answer.

Full statement (false): a store answers `Ok` exactly if the operation can be done, which is when the accounts it is about
exist (and, to separate two accounts, when each is a peer of the other); and an operation that is answered with an error
changes nothing.
-/
namespace Verif.Backends
open Verif

/-- Whether an operation can be done, by who has an account and who is a peer of whom. -/
def Possible (known : Cid → Bool) (peers : Cid → Cid → Bool) : Op → Prop
  | .save _ => True
  | .purge => True
  | .delete c => known c = true
  | .regServer a b => known a = true ∧ known b = true
  | .regClient s _ _ => known s = true
  | .deregServer a b => known a = true ∧ known b = true ∧ peers a b = true ∧ peers b a = true
  | .deregClient s _ => known s = true
  | .sync s _ => known s = true
  | .store x _ => known x.session = true
  | .remove x => known x.session = true
  | .removeAll s _ _ => known s = true

/-- Operations that change a list of peers or the values of one account. -/
def OnAccount : Op → Prop
  | .sync _ _ => True
  | .store _ _ => True
  | .remove _ => True
  | .removeAll _ _ _ => True
  | _ => False

/-- Nobody is separated from themselves. -/
def TwoPeople : Op → Prop
  | .deregServer a b => a ≠ b
  | _ => True

theorem Memory.peersOf_dropPeer_other (m : Memory) {a b c : Cid} (h : c ≠ a) : (m.dropPeer a b).peersOf c = m.peersOf c := by
  unfold Memory.peersOf Memory.dropPeer Memory.modify
  split
  · rw [AMap.get?_insert_ne _ _ h]
  · rfl

theorem C152_memory_partial (m : Memory) (o : Op) (ho : ¬ OnAccount o) (h2 : TwoPeople o) :
    (m.step o).2 = true ↔ Possible m.contains m.peerExists o := by
  cases o with
  | regServer a b =>
    simp only [Memory.step, Possible, AMap.contains]
    cases m.get? a <;> cases m.get? b <;> simp
  | deregServer a b =>
    have hx : (m.dropPeer a b).peerExists b a = m.peerExists b a := by
      unfold Memory.peerExists
      rw [Memory.peersOf_dropPeer_other m (fun e => h2 e.symm)]
    simp only [Memory.step, Possible, hx]
    cases m.contains a <;> cases m.contains b <;> cases m.peerExists a b <;> cases m.peerExists b a <;> simp
  | sync _ _ => exact absurd trivial ho
  | store _ _ => exact absurd trivial ho
  | remove _ => exact absurd trivial ho
  | removeAll _ _ _ => exact absurd trivial ho
  | save _ => simp [Memory.step, Possible]
  | purge => simp [Memory.step, Possible]
  | delete c => simp only [Memory.step, Possible]; cases m.contains c <;> simp
  | regClient s p n => simp only [Memory.step, Possible]; cases m.contains s <;> simp
  | deregClient s p => simp only [Memory.step, Possible]; cases m.contains s <;> simp

/-- What memory is asked to store, remove or set for an account that it does not have is dropped, and the answer is `Ok`. -/
theorem C152_counterexample_memory (m : Memory) (o : Op) (ho : OnAccount o) (h : ¬ Possible m.contains m.peerExists o) :
    m.step o = (m, true) := by
  have key : ∀ c f, ¬ AMap.contains m c = true → m.modify c f = m := by
    intro c f hc
    unfold Memory.modify
    unfold AMap.contains at hc
    cases hg : m.get? c with
    | none => rfl
    | some x => rw [hg] at hc; exact absurd rfl hc
  cases o with
  | sync s ps => simp only [Memory.step]; rw [key _ _ h]
  | store x v => simp only [Memory.step]; rw [key _ _ h]
  | remove x => simp only [Memory.step]; rw [key _ _ h]
  | removeAll s p k => simp only [Memory.step]; rw [key _ _ h]
  | _ => exact absurd ho id

/-- Memory: an error changes nothing, but for the separation of two accounts of which one does not have the other. -/
theorem C152_memory_error_partial (m : Memory) (o : Op) (ho : ∀ a b, o = .deregServer a b → m.peerExists a b = false)
    (h : (m.step o).2 = false) : (m.step o).1 = m := by
  cases o with
  | regServer a b =>
    simp only [Memory.step] at h ⊢
    split at h
    · cases h
    · rfl
  | deregServer a b =>
    simp only [Memory.step, ho a b rfl]
    split <;> rfl
  | save _ => simp [Memory.step] at h
  | purge => simp [Memory.step] at h
  | delete c => simp only [Memory.step] at h ⊢; cases hc : m.contains c <;> simp_all
  | regClient s p n => simp only [Memory.step] at h ⊢; cases hc : m.contains s <;> simp_all
  | deregClient s p => simp only [Memory.step] at h ⊢; cases hc : m.contains s <;> simp_all
  | sync _ _ => simp [Memory.step] at h
  | store _ _ => simp [Memory.step] at h
  | remove _ => simp [Memory.step] at h
  | removeAll _ _ _ => simp [Memory.step] at h

/-- Memory: if `b` is in the list of `a` and `a` not in that of `b`, separating them is an error, and takes `b` from the
list of `a`. -/
theorem C152_counterexample_memory_half (m : Memory) (a b : Cid) (h2 : a ≠ b) (ha : m.contains a = true)
    (hb : m.contains b = true) (hab : m.peerExists a b = true) (hba : m.peerExists b a = false) :
    (m.step (.deregServer a b)).2 = false ∧
    ((m.step (.deregServer a b)).1.peersOf a).length + 1 = (m.peersOf a).length := by
  have hx : (m.dropPeer a b).peerExists b a = false := by
    unfold Memory.peerExists at hba ⊢
    rw [Memory.peersOf_dropPeer_other m (fun e => h2 e.symm), hba]
  simp only [Memory.step, ha, hb, hab, hx, Bool.and_self, if_true, Bool.false_eq_true, if_false, true_and]
  unfold Memory.peerExists at hab
  unfold Memory.peersOf Memory.dropPeer Memory.modify at *
  unfold AMap.contains at ha
  cases hg : m.get? a with
  | none => rw [hg] at ha; cases ha
  | some x =>
    rw [hg] at hab
    simp only [Option.map_some, Option.getD_some, List.any_eq_true, decide_eq_true_eq] at hab ⊢
    rw [AMap.get?_insert_self]
    obtain ⟨e, he, hc⟩ := hab
    simp only [Option.map_some, Option.getD_some]
    rw [List.length_eraseP_of_mem he (by simpa using hc)]
    have : 0 < x.peers.length := List.length_pos_of_mem he
    omega

/-- Files: the answer is right for every operation. -/
theorem C152_files (w : Files) (o : Op) (h2 : TwoPeople o) :
    (w.step o).2 = true ↔ Possible w.mem.contains w.mem.peerExists o := by
  have hsave : ∀ (v : Files) c, (v.saveByCid c).2 = v.mem.contains c ∧ (v.saveByCid c).1.mem = v.mem := by
    intro v c
    unfold Files.saveByCid AMap.contains
    cases v.mem.get? c <;> exact ⟨rfl, rfl⟩
  have hmod : ∀ (m : Memory) c f d, (m.modify c f).contains d = m.contains d := by
    intro m c f d
    unfold Memory.modify AMap.contains
    cases hg : m.get? c with
    | none => rfl
    | some x =>
      rw [AMap.get?_insert]
      split
      · rename_i e; subst e; rw [hg]; rfl
      · rfl
  cases o with
  | save a =>
    simp only [Files.step, Possible, iff_true, (hsave _ _).1, Memory.step, AMap.contains, AMap.get?_insert_self,
      Option.isSome_some]
  | purge => simp [Files.step, Possible]
  | delete c =>
    have := C152_memory_partial w.mem (.delete c) id trivial
    simp only [Files.step]
    rw [← this]
    cases (w.mem.step (.delete c)).2 <;> simp
  | regServer a b =>
    have := C152_memory_partial w.mem (.regServer a b) id trivial
    simp only [Files.step]
    rw [← this]
    by_cases hr : (w.mem.step (.regServer a b)).2 = true
    · obtain ⟨ha, hb⟩ := this.mp hr
      have hc : ∀ d, (w.mem.step (.regServer a b)).1.contains d = w.mem.contains d := by
        intro d
        simp only [Memory.step]
        split
        · simp only [hmod]
        · rfl
      simp only [hr, if_true, (hsave _ _).1, (hsave _ _).2, hc, ha, hb]
    · simp [hr]
  | deregServer a b =>
    have := C152_memory_partial w.mem (.deregServer a b) id h2
    simp only [Files.step]
    rw [← this]
    cases hr : (w.mem.step (.deregServer a b)).2 with
    | false => simp
    | true =>
      have hp := this.mp hr
      obtain ⟨ha, hb, hab, hba⟩ := hp
      have he : (w.mem.step (.deregServer a b)).1 = (w.mem.dropPeer a b).dropPeer b a := by
        have hx : (w.mem.dropPeer a b).peerExists b a = true := by
          unfold Memory.peerExists at hba ⊢
          rw [Memory.peersOf_dropPeer_other _ (fun e => h2 e.symm), hba]
        simp only [Memory.step, ha, hb, hab, hx, Bool.and_self, if_true]
      simp only [if_true, (hsave _ _).1, (hsave _ _).2, he, Memory.dropPeer, hmod, ha, hb]
  | regClient s p n =>
    simp only [Files.step, Memory.step, Possible]
    by_cases hc : w.mem.contains s = true
    · simp [(hsave _ _).1, hmod, hc]
    · simp [hc]
  | deregClient s p =>
    simp only [Files.step, Memory.step, Possible]
    by_cases hc : w.mem.contains s = true
    · simp [(hsave _ _).1, Memory.dropPeer, hmod, hc]
    · simp [hc]
  | sync s ps => simp only [Files.step, Memory.step, Possible, (hsave _ _).1, hmod]
  | store x v => simp only [Files.step, Memory.step, Possible, (hsave _ _).1, hmod]
  | remove x => simp only [Files.step, Memory.step, Possible, (hsave _ _).1, hmod]
  | removeAll s p k => simp only [Files.step, Memory.step, Possible, (hsave _ _).1, hmod]

/-- SQL: an error changes nothing. -/
theorem C152_sql_error (d : Db) (o : Op) (h : (d.step o).2 = false) : (d.step o).1 = d := by
  cases o <;> simp only [Db.step] at h ⊢ <;> (repeat' split) <;> simp_all

/-- SQL: the answer is right where the database has to find the account. -/
theorem C152_sql_partial (d : Db) (o : Op)
    (ho : (∀ a b, o ≠ .deregServer a b) ∧ (∀ s p, o ≠ .deregClient s p) ∧ (∀ s, o ≠ .sync s []) ∧ (∀ x, o ≠ .remove x) ∧
      ∀ s p k, o ≠ .removeAll s p k) :
    (d.step o).2 = true ↔ Possible d.isRegistered d.peerExists o := by
  have hu : ∀ c, (d.usernameOf c).isSome = d.isRegistered c := by
    intro c
    rw [Bool.eq_iff_iff]
    simp [Db.usernameOf, Db.isRegistered, List.find?_isSome]
  obtain ⟨h1, h2, h3, h4, h5⟩ := ho
  cases o with
  | regServer a b =>
    simp only [Db.step, Possible, ← hu]
    cases d.usernameOf a <;> cases d.usernameOf b <;> simp
  | deregServer a b => exact absurd rfl (h1 a b)
  | deregClient s p => exact absurd rfl (h2 s p)
  | remove x => exact absurd rfl (h4 x)
  | removeAll s p k => exact absurd rfl (h5 s p k)
  | sync s ps =>
    cases ps with
    | nil => exact absurd rfl (h3 s)
    | cons p ps => simp only [Db.step, Possible, List.isEmpty_cons]; cases d.isRegistered s <;> simp
  | save a => simp only [Db.step, Possible]; split <;> simp
  | purge => simp [Db.step, Possible]
  | delete c => simp only [Db.step, Possible]; cases d.isRegistered c <;> simp
  | regClient s p n => simp only [Db.step, Possible]; cases d.isRegistered s <;> simp
  | store x v => simp only [Db.step, Possible]; cases d.isRegistered x.session <;> simp

/-- SQL: the other operations are always answered with `Ok`, whoever exists. -/
theorem C152_counterexample_sql (d : Db) (a b : Cid) (x : Slot) (k : Str) :
    (d.step (.deregServer a b)).2 = true ∧ (d.step (.deregClient a b)).2 = true ∧ (d.step (.sync a [])).2 = true ∧
    (d.step (.remove x)).2 = true ∧ (d.step (.removeAll a b k)).2 = true := ⟨rfl, rfl, rfl, rfl, rfl⟩

/-- Redis: the answers of the three operations that look for a name are right about the names. -/
theorem C152_redis_partial (r : Redis) (a b : Cid) :
    ((r.step (.delete a)).2 = true ↔ (r.usernameOf a).isSome) ∧
    ((r.step (.regServer a b)).2 = true ↔ (r.usernameOf a).isSome ∧ (r.usernameOf b).isSome) ∧
    ((r.step (.deregServer a b)).2 = true ↔ (r.usernameOf a).isSome ∧ (r.usernameOf b).isSome) ∧
    ((r.step (.deregClient a b)).2 = true ↔ r.peerExists a b = true) := by
  unfold Redis.usernameOf
  refine ⟨?_, ?_, ?_, ?_⟩
  · simp only [Redis.step, Redis.deleteCnac]
    cases r.get (cidToUsernameKey a) <;> simp
  · simp only [Redis.step, Redis.regServer]
    cases r.get (cidToUsernameKey a) <;> cases r.get (cidToUsernameKey b) <;> simp
  · simp only [Redis.step, Redis.deregServer]
    cases r.get (cidToUsernameKey a) <;> cases r.get (cidToUsernameKey b) <;> simp
  · simp only [Redis.step, Redis.peerExists, Redis.hexists, Redis.hget, AMap.contains]
    cases (r.hash (peerUsernameKey a)).get? (dec b) <;> simp

/-- Redis: registering an account with one that does not exist is an error, and makes the two look like peers from one
side: the first has no account and has the second as a peer. -/
theorem C152_counterexample_redis_half (r : Redis) (a b : Cid) (n : Str) (ha : r.usernameOf a = none)
    (hb : r.usernameOf b = some n) :
    (r.step (.regServer a b)).2 = false ∧ (r.step (.regServer a b)).1.peerExists a b = true := by
  unfold Redis.usernameOf at ha hb
  simp only [Redis.step, Redis.regServer, ha, hb, true_and]
  simp [Redis.peerExists, Redis.hexists, Redis.hset, Redis.put, Redis.hash, AMap.contains, AMap.get?_insert_self]

/-- Redis: values and peers of accounts that do not exist are kept, and the answer is `Ok`. -/
theorem C152_counterexample_redis (r : Redis) (x : Slot) (v : Str) (s p : Cid) (n : Str) :
    (r.step (.store x v)).2 = true ∧ (r.step (.store x v)).1.getByte x = some v ∧
    (r.step (.regClient s p n)).2 = true ∧ (r.step (.regClient s p n)).1.peerExists s p = true := by
  refine ⟨rfl, ?_, rfl, ?_⟩
  · simp [Redis.step, Redis.getByte, Redis.hget, Redis.hset, Redis.put, Redis.hash, AMap.get?_insert_self]
  · have hne : peerUsernameKey s ≠ peerCidKey s := fun e => by
      cases C115_redis_keys (.peersByCid s) (.peersByName s) e
    have : (r.step (.regClient s p n)).1.hget (peerUsernameKey s) (dec p) = some n := by
      simp [Redis.step, Redis.hget_hset, hne]
    unfold Redis.peerExists Redis.hexists AMap.contains
    unfold Redis.hget at this
    rw [this]; rfl

/-- An account that has another as a peer which does not have it, and a value for an account that does not exist. -/
def half : Memory := [(1, ⟨⟨1, "a".toList, [], false, []⟩, [⟨2, none⟩], []⟩), (2, ⟨⟨2, "b".toList, [], false, []⟩, [], []⟩)]
example : (half.step (.deregServer 1 2)).2 = false ∧ (half.step (.deregServer 1 2)).1.peersOf 1 = [] ∧
    half.step (.store ⟨3, 0, "k".toList, "s".toList⟩ "v".toList) = (half, true) ∧
    ((⟨half, []⟩ : Files).step (.store ⟨3, 0, "k".toList, "s".toList⟩ "v".toList)).2 = false := by decide +kernel
example : (Redis.empty.saveCnac ⟨2, "b".toList, [], false, []⟩).usernameOf 2 = some "b".toList ∧
    (Redis.empty.saveCnac ⟨2, "b".toList, [], false, []⟩).usernameOf 1 = none := by decide +kernel

end Verif.Backends

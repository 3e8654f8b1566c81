import Verif.Backends.Queries
/-
C115-C120.
-/
namespace Verif.Backends
open Verif
set_option linter.unusedSimpArgs false

/-! ### C115: what is written for a cid or a key is read back as the same one -/

theorem C115_sql_cid (v : Variant) (c : Cid) : readCid (bindCid v c) = some c := readCid_bindCid v c

/-- Both conversions to and from BIGINT are inverse to each other: no two cids share a column value, and every value of
the column is a cid. -/
theorem C115_sql_bigint (c : UInt64) (i : Int64) :
    i64IntoU64 (u64IntoI64 c) = c ∧ u64IntoI64 (i64IntoU64 i) = i :=
  ⟨i64IntoU64_u64IntoI64 c, u64IntoI64_i64IntoU64 i⟩

/-- The keys of the Redis store. -/
inductive RKey where
  | username (u : Str)
  | cidToUsername (c : Cid)
  | peersByName (c : Cid)
  | peersByCid (c : Cid)
  | bytes (s p : Cid) (key : Str)
  | personals
  | impersonals
  | clients

def RKey.text : RKey → Str
  | .username u => usernameKey u
  | .cidToUsername c => cidToUsernameKey c
  | .peersByName c => peerCidKey c
  | .peersByCid c => peerUsernameKey c
  | .bytes s p k => byteMapKey s p k
  | .personals => personalKey
  | .impersonals => impersonalKey
  | .clients => cnacKey

/-- No two keys of the Redis store are the same text, whatever names and keys the users choose. -/
theorem C115_redis_keys (a b : RKey) (h : a.text = b.text) : a = b := by
  have hk : kind a.text = kind b.text := by rw [h]
  cases a <;> cases b <;> simp only [RKey.text] at h hk <;> (try simp at hk) <;> simp_all

example : RKey.text (.bytes 1 23 "a.4".toList) ≠ RKey.text (.bytes 12 3 "a.4".toList) := by decide

/-! ### C116: a value of the byte map is the one stored last -/

/-- In memory. -/
theorem C116_memory (ops : List Op) (h : Along FreshAccounts Ref.empty ops) (x : Slot) :
    (Memory.run [] ops).getByte x = (Ref.empty.run ops).byte x ∧
      ((Memory.run [] ops).getBytes x.session x.peer x.key).get? x.sub = (Ref.empty.run ops).byte x := by
  have hb : Memory.MByte (Ref.empty.run ops) (Memory.run [] ops) :=
    Along.run (fun _ _ o hp h => Memory.MByte.step o hp h) ops Ref.empty [] h Memory.MByte.empty
  refine ⟨hb.byte x, ?_⟩
  rw [Memory.getBytes_get?]
  exact hb.byte x

/-- Redis, as long as accounts are emptied before they are deleted. -/
theorem C116_redis_partial (ops : List Op) (h : Along EmptyDelete Ref.empty ops) (x : Slot) :
    (Redis.empty.run ops).getByte x = (Ref.empty.run ops).byte x ∧
      ((Redis.empty.run ops).getBytes x.session x.peer x.key).get? x.sub = (Ref.empty.run ops).byte x := by
  have hb : Redis.RByte (Ref.empty.run ops) (Redis.empty.run ops) :=
    Along.run (fun _ _ o hp h => Redis.RByte.step o hp h) ops Ref.empty Redis.empty h (fun _ => rfl)
  exact ⟨hb x, hb x⟩

/-- SQL, as long as no value is overwritten: every answer the database may give is right. -/
theorem C116_sql_partial (v : Variant) (ops : List Op) (h : Along NoOverwrite Ref.empty ops) :
    (∀ x r, ((Db.empty v).run ops).GetByte x r ↔ r = (Ref.empty.run ops).byte x) ∧
    ∀ s p key r, ((Db.empty v).run ops).GetBytes s p key r ↔ ∀ k, r k = (Ref.empty.run ops).byte ⟨s, p, key, k⟩ := by
  have hb : Db.SByte (Ref.empty.run ops) ((Db.empty v).run ops) :=
    Along.run (fun _ _ o hp h => Db.SByte.step o hp h) ops Ref.empty (Db.empty v) h (Db.SByte.empty v)
  exact ⟨hb.getByte, hb.getBytes⟩

/-- `store_byte_map_value` of the SQL store adds a row and leaves the old one: whatever is stored, the value stored before
remains a possible answer. -/
theorem C116_counterexample_sql (d : Db) (x : Slot) (old new : Str) (h : d.GetByte x (some old)) :
    ((d.step (.store x new)).1).GetByte x (some old) := by
  obtain ⟨_, e⟩ | ⟨row, hm, e⟩ := h
  · simp at e
  · refine .inr ⟨row, ?_, e⟩
    have hv := Db.variant_step d (.store x new)
    rw [Db.byteRows_eq] at hm ⊢
    rw [hv]
    simp only [Db.step]
    split
    · rw [List.filter_append]
      exact List.mem_append_left _ hm
    · exact hm

/-- A history that writes a value, reads the old one after it and loses the other. -/
theorem C116_counterexample_sql_history (v : Variant) :
    let alice : Acct := ⟨7, "alice".toList, [], false, []⟩
    let x : Slot := ⟨7, 0, "k".toList, "s".toList⟩
    let ops : List Op := [.save alice, .store x "old".toList, .store x "new".toList]
    (Ref.empty.run ops).byte x = some "new".toList ∧ ((Db.empty v).run ops).GetByte x (some "old".toList) ∧
      ∃ r, ((Db.empty v).run ops).GetBytes 7 0 "k".toList r ∧ r "s".toList = some "old".toList := by
  intro alice x ops
  refine ⟨by decide, .inr ⟨(Db.empty v).byteRow x "old".toList, ?_, rfl⟩,
    fun k => if k = "s".toList then some "old".toList else none,
    ⟨[(Db.empty v).byteRow x "new".toList, (Db.empty v).byteRow x "old".toList], ?_, ?_⟩, by decide⟩
  · cases v <;> decide
  · have : (List.filter (fun r : ByteRow => decide (r.cid = ((Db.empty v).run ops).enc 7 ∧
        r.peer = ((Db.empty v).run ops).enc 0 ∧ r.id = "k".toList)) ((Db.empty v).run ops).bytes) =
        [(Db.empty v).byteRow x "old".toList, (Db.empty v).byteRow x "new".toList] := by
      cases v <;> decide
    rw [this]
    exact List.Perm.swap _ _ _
  · intro k
    simp only [List.foldl_cons, List.foldl_nil]
    rw [AMap.get?_insert]
    show _ = if k = "s".toList then _ else AMap.get? (AMap.insert [] "s".toList _) k
    split
    · rfl
    · rename_i hk
      rw [AMap.get?_insert, if_neg hk]; rfl

/-! ### C117: nothing of a deleted account is left -/

/-- SQL: no row of the account, no row that names it as a peer, no value of its byte map; every row that has nothing to
do with it stays. -/
theorem C117_sql (d : Db) (c : Cid) (h : d.isRegistered c = true) :
    let d' := (d.step (.delete c)).1
    (∀ r ∈ d'.cnacs, r.cid ≠ d.enc c) ∧ (∀ r ∈ d'.peers, r.cid ≠ d.enc c ∧ r.peer ≠ d.enc c) ∧
    (∀ r ∈ d'.bytes, r.cid ≠ d.enc c) ∧
    (∀ r ∈ d.cnacs, r.cid ≠ d.enc c → r ∈ d'.cnacs) ∧
    (∀ r ∈ d.peers, r.cid ≠ d.enc c → r.peer ≠ d.enc c → r ∈ d'.peers) ∧
    (∀ r ∈ d.bytes, r.cid ≠ d.enc c → r ∈ d'.bytes) := by
  simp only [Db.step, h, if_true]
  refine ⟨?_, ?_, ?_, ?_, ?_, ?_⟩ <;> intro r hr
  · simpa using (List.mem_filter.mp hr).2
  · simpa using (List.mem_filter.mp hr).2
  · simpa using (List.mem_filter.mp hr).2
  · exact fun h => List.mem_filter.mpr ⟨hr, by simp [h]⟩
  · exact fun h h' => List.mem_filter.mpr ⟨hr, by simp [h, h']⟩
  · exact fun h => List.mem_filter.mpr ⟨hr, by simp [h]⟩

/-- Memory: after the history of a server, a deleted account has no values and no peers, and no one has it as a peer. -/
theorem C117_memory (cidOf : Str → Cid) (ops : List Op) (h : Along (ServerOps cidOf) Ref.empty ops)
    (hn : Along NewPeers Ref.empty ops) (c : Cid) :
    let m := Memory.run [] (ops ++ [.delete c])
    m.get? c = none ∧ (∀ x : Slot, x.session = c → m.getByte x = none) ∧
      ∀ s, m.peerExists s c = false ∧ m.peerExists c s = false := by
  intro m
  have hm : Memory.MPeer cidOf (Ref.empty.run ops) (Memory.run [] ops) :=
    Along.run (P := fun w o => ServerOps cidOf w o ∧ NewPeers w o) (fun _ _ o hp h => Memory.MPeer.step o hp.1 hp.2 h)
      ops Ref.empty [] (h.and hn) (Memory.MPeer.empty cidOf)
  have hd := hm.step (.delete c) trivial trivial
  have em : m = ((Memory.run [] ops).step (.delete c)).1 := by
    show (ops ++ [Op.delete c]).foldl _ _ = _
    rw [List.foldl_append]; rfl
  have hname : ((Ref.empty.run ops).step (.delete c)).name c = none := by
    simp only [Ref.step]
    split
    · simp
    · rename_i hx; simpa using hx
  have hg : m.get? c = none := by
    have := hd.name c
    rw [hname, ← em] at this
    simpa [Memory.nameOf] using this
  refine ⟨hg, fun x hx => ?_, fun s => ?_⟩
  · unfold Memory.getByte; rw [hx, hg]
  · rw [em, hd.peerExists, hd.peerExists]
    have hi := hd.inv
    constructor
    · cases hx : ((Ref.empty.run ops).step (.delete c)).peer s c with
      | none => rfl
      | some n => have := hi.peerNamed hx; rw [hname] at this; simp at this
    · cases hx : ((Ref.empty.run ops).step (.delete c)).peer c s with
      | none => rfl
      | some n => have := hi.selfNamed hx; rw [hname] at this; simp at this

/-- Redis: `delete_cnac_by_cid` leaves every value of the byte map of the account, and the account that next gets the cid
(which is a function of the name) reads them. -/
theorem C117_counterexample_redis (r : Redis) (x : Slot) (a : Acct) :
    (((r.step (.delete x.session)).1.step (.save a)).1).getByte x = r.getByte x := by
  simp only [Redis.step]
  unfold Redis.getByte
  rw [Redis.hget_saveCnac _ _ (by simp) (by simp) (by simp) (by simp),
    Redis.hget_deleteCnac_other _ _ (by simp) (by simp) (by simp) (by simp) (by simp) (by simp)]

/-- Redis: for the lists of peers the deletion is complete, after the history of a server. -/
theorem C117_redis_peers_partial (cidOf : Str → Cid) (ops : List Op) (h : Along (ServerOps cidOf) Ref.empty ops) (c : Cid) :
    let r := Redis.empty.run (ops ++ [.delete c])
    r.usernameOf c = none ∧ ∀ s, r.peerExists s c = false ∧ r.peerExists c s = false := by
  intro m
  have hinit : Redis.RPeer cidOf Ref.empty Redis.empty :=
    ⟨RefInv.empty cidOf, fun _ => rfl, fun _ _ => rfl, fun _ _ => by simp [Ref.empty, Redis.empty, Redis.hget, Redis.hash]⟩
  have hm : Redis.RPeer cidOf (Ref.empty.run ops) (Redis.empty.run ops) :=
    Along.run (fun _ _ o hp h => Redis.RPeer.step o hp h) ops Ref.empty Redis.empty h hinit
  have hd := Redis.RPeer.step (.delete c) trivial hm
  have em : m = ((Redis.empty.run ops).step (.delete c)).1 := by
    show (ops ++ [Op.delete c]).foldl _ _ = _
    rw [List.foldl_append]; rfl
  have hname : ((Ref.empty.run ops).step (.delete c)).name c = none := by
    simp only [Ref.step]
    split
    · simp
    · rename_i hx; simpa using hx
  refine ⟨by rw [em]; exact (hd.name c).trans hname, fun s => ?_⟩
  rw [em, hd.peerExists, hd.peerExists]
  have hi := hd.inv
  constructor
  · cases hx : ((Ref.empty.run ops).step (.delete c)).peer s c with
    | none => rfl
    | some n => have := hi.peerNamed hx; rw [hname] at this; simp at this
  · cases hx : ((Ref.empty.run ops).step (.delete c)).peer c s with
    | none => rfl
    | some n => have := hi.selfNamed hx; rw [hname] at this; simp at this

/-! ### C118: the peers of an account are those it was registered with -/

/-- SQL, as long as no pair is registered twice and no empty list is synchronized. -/
theorem C118_sql_partial (v : Variant) (ops : List Op) (h : Along NoDuplicates Ref.empty ops) (s p : Cid) :
    let d := (Db.empty v).run ops
    let w := Ref.empty.run ops
    d.peerExists s p = (w.peer s p).isSome ∧
    (∀ r, d.GetPeer s p r ↔ r = (w.peer s p).map fun n => ⟨p, some n⟩) ∧
    ∀ r, d.PeerList s r → (∀ q, q ∈ r.getD [] ↔ (w.peer s q).isSome) ∧ (r.getD []).Nodup ∧ r ≠ some [] := by
  intro d w
  have hb : Db.SPeer w d :=
    Along.run (fun _ _ o hp h => Db.SPeer.step o hp h) ops Ref.empty (Db.empty v) h (Db.SPeer.empty v)
  exact ⟨hb.peerExists s p, hb.getPeer s p, hb.peerList s⟩

/-- Redis, for the histories of a server. -/
theorem C118_redis_partial (cidOf : Str → Cid) (ops : List Op) (h : Along (ServerOps cidOf) Ref.empty ops) (s p : Cid) :
    let r := Redis.empty.run ops
    let w := Ref.empty.run ops
    r.peerExists s p = (w.peer s p).isSome ∧ r.getPeer s p = (w.peer s p).map fun n => ⟨p, some n⟩ := by
  intro r w
  have hinit : Redis.RPeer cidOf Ref.empty Redis.empty :=
    ⟨RefInv.empty cidOf, fun _ => rfl, fun _ _ => rfl, fun _ _ => by simp [Ref.empty, Redis.empty, Redis.hget, Redis.hash]⟩
  have hm : Redis.RPeer cidOf w r :=
    Along.run (fun _ _ o hp h => Redis.RPeer.step o hp h) ops Ref.empty Redis.empty h hinit
  exact ⟨hm.peerExists s p, hm.getPeer s p⟩

/-- Memory, for the histories of a server in which no pair is registered twice. -/
theorem C118_memory_partial (cidOf : Str → Cid) (ops : List Op) (h : Along (ServerOps cidOf) Ref.empty ops)
    (hn : Along NewPeers Ref.empty ops) (s p : Cid) :
    let m := Memory.run [] ops
    let w := Ref.empty.run ops
    m.peerExists s p = (w.peer s p).isSome ∧
      ((m.peersOf s).find? fun e => e.cid = p) = (w.peer s p).map (fun n => ⟨p, some n⟩) ∧
      ((m.peersOf s).map Peer.cid).Nodup := by
  intro m w
  have hm : Memory.MPeer cidOf w m :=
    Along.run (P := fun w o => ServerOps cidOf w o ∧ NewPeers w o) (fun _ _ o hp h => Memory.MPeer.step o hp.1 hp.2 h)
      ops Ref.empty [] (h.and hn) (Memory.MPeer.empty cidOf)
  exact ⟨hm.peerExists s p, hm.entry s p, hm.nodup s⟩

/-- SQL: registering two peers that are registered makes both look unregistered, whatever the tables hold. -/
theorem C118_counterexample_sql_twice (d : Db) (a b : Cid) (na nb : Str) (hab : a ≠ b) (ha : d.usernameOf a = some na)
    (hb : d.usernameOf b = some nb) (h : d.peerExists a b = true ∧ d.peerExists b a = true) :
    let d' := (d.step (.regServer a b)).1
    d'.peerExists a b = false ∧ d'.peerExists b a = false := by
  have e : (d.step (.regServer a b)).1 = (d.insertPeer b a na).insertPeer a b nb := by simp only [Db.step, ha, hb]
  intro d'
  have e : d' = _ := e
  rw [e]
  have h1 := h.1
  have h2 := h.2
  unfold Db.peerExists at h1 h2 ⊢
  simp only [beq_iff_eq] at h1 h2
  rw [Db.peerRows_insertPeer, Db.peerRows_insertPeer, Db.peerRows_insertPeer, Db.peerRows_insertPeer]
  rw [if_pos ⟨rfl, rfl⟩, if_neg (fun k => hab k.1), if_neg (fun k => hab k.1.symm), if_pos ⟨rfl, rfl⟩]
  simp [h1, h2]

/-- SQL: the empty list does not replace the list of an account. -/
theorem C118_counterexample_sql_sync (d : Db) (s : Cid) : d.step (.sync s []) = (d, true) := rfl

/-- Redis: `register_p2p_as_server` with a first account that does not exist writes half of the registration before it
fails: an account that is created with that cid later has a peer that it never registered with and that does not have
it as a peer. -/
theorem C118_counterexample_redis_half (r : Redis) (a b : Cid) (nb : Str) (hab : a ≠ b)
    (ha : r.get (cidToUsernameKey a) = none) (hb : r.get (cidToUsernameKey b) = some nb)
    (hp : r.peerExists b a = false) :
    (r.step (.regServer a b)).2 = false ∧ (r.step (.regServer a b)).1.peerExists a b = true ∧
      (r.step (.regServer a b)).1.peerExists b a = false := by
  have e : r.step (.regServer a b) = (r.hset (peerUsernameKey a) (dec b) nb, false) := by
    simp only [Redis.step, Redis.regServer, ha, hb]
  rw [e]
  have key : ∀ s p, (r.hset (peerUsernameKey a) (dec b) nb).peerExists s p =
      ((r.hset (peerUsernameKey a) (dec b) nb).hget (peerUsernameKey s) (dec p)).isSome := fun s p => rfl
  refine ⟨rfl, ?_, ?_⟩
  · rw [key, Redis.hget_hset]; simp
  · rw [key, Redis.hget_hset, if_neg (by simp [Ne.symm hab])]
    exact hp

/-- Redis: a peer whose name the server does not know is dropped from the list. -/
theorem C118_counterexample_redis_sync :
    let r := Redis.empty.run [.save ⟨7, "alice".toList, [], true, []⟩, .sync 7 [⟨8, none⟩]]
    r.peerExists 7 8 = false := by decide

/-! ### C119: questions about many peers are answered like questions about each -/

/-- SQL, without duplicate rows and with exact comparisons: `LIMIT` cuts nothing off. -/
theorem C119_sql_partial (v : Variant) (ops : List Op) (h : Along NoDuplicates Ref.empty ops)
    (close : Int64 → Int64 → Bool) (he : v = .mysql → ∀ i j, close i j = true ↔ i = j) (s : Cid) (ps : List Cid) :
    let d := (Db.empty v).run ops
    let w := Ref.empty.run ops
    (∀ r, d.AreMutuals close s ps r ↔ r = ps.map fun c => (w.peer s c).isSome) ∧
    ∀ r, d.GetPeers close s ps r → r.Perm (ps.filterMap fun c => (w.peer s c).map fun n => ⟨c, some n⟩) := by
  intro d w
  have hb : Db.SPeer w d :=
    Along.run (fun _ _ o hp h => Db.SPeer.step o hp h) ops Ref.empty (Db.empty v) h (Db.SPeer.empty v)
  have hv : ∀ (l : List Op) (d : Db), (d.run l).variant = d.variant := by
    intro l
    induction l with
    | nil => intro d; rfl
    | cons o l ih => intro d; exact (ih _).trans (Db.variant_step d o)
  have hx : Db.Exact d close := fun k => he ((hv ops (Db.empty v)).symm.trans k)
  exact ⟨hb.areMutuals hx s ps, fun r => hb.getPeers hx s ps r⟩

/-- Redis, for the histories of a server: the mutual check is right, the list of peers is right or an error, and it is an
error as soon as one cid is not a peer. -/
theorem C119_redis_partial (cidOf : Str → Cid) (ops : List Op) (h : Along (ServerOps cidOf) Ref.empty ops) (s : Cid)
    (ps : List Cid) :
    let r := Redis.empty.run ops
    let w := Ref.empty.run ops
    r.areMutuals s ps = (ps.map fun c => (w.peer s c).isSome) ∧
    r.getPeers s ps = ps.mapM (fun c => (w.peer s c).map fun n => (⟨c, some n⟩ : Peer)) := by
  intro r w
  have hinit : Redis.RPeer cidOf Ref.empty Redis.empty :=
    ⟨RefInv.empty cidOf, fun _ => rfl, fun _ _ => rfl, fun _ _ => by simp [Ref.empty, Redis.empty, Redis.hget, Redis.hash]⟩
  have hm : Redis.RPeer cidOf w r :=
    Along.run (fun _ _ o hp h => Redis.RPeer.step o hp h) ops Ref.empty Redis.empty h hinit
  refine ⟨?_, hm.getPeers s ps⟩
  unfold Redis.areMutuals
  exact List.map_congr_left fun c _ => hm.peerExists s c

/-- Memory, for the histories of a server in which no pair is registered twice and an account that exists. -/
theorem C119_memory_partial (cidOf : Str → Cid) (ops : List Op) (h : Along (ServerOps cidOf) Ref.empty ops)
    (hn : Along NewPeers Ref.empty ops) (s : Cid) (ps : List Cid) :
    let m := Memory.run [] ops
    let w := Ref.empty.run ops
    ((w.name s).isSome → m.areMutuals s ps = ps.map fun c => (w.peer s c).isSome) ∧
    m.getPeers s ps = ps.filterMap fun c => (w.peer s c).map fun n => ⟨c, some n⟩ := by
  intro m w
  have hm : Memory.MPeer cidOf w m :=
    Along.run (P := fun w o => ServerOps cidOf w o ∧ NewPeers w o) (fun _ _ o hp h => Memory.MPeer.step o hp.1 hp.2 h)
      ops Ref.empty [] (h.and hn) (Memory.MPeer.empty cidOf)
  constructor
  · intro hs
    unfold Memory.areMutuals
    cases ps with
    | nil => rfl
    | cons c ps =>
      have hname := hm.name s
      cases hg : m.get? s with
      | none =>
        unfold Memory.nameOf at hname
        rw [hg] at hname
        rw [← hname] at hs; simp at hs
      | some x =>
        simp only [List.isEmpty_cons]
        refine List.map_congr_left fun c' _ => ?_
        have := hm.peerExists s c'
        unfold Memory.peerExists Memory.peersOf at this
        rw [hg] at this
        exact this
  · unfold Memory.getPeers
    congr 1
    funext c
    exact hm.entry s c

/-- SQL: a duplicate row (see C118) takes a place of the `LIMIT`, and a peer is reported as none. -/
theorem C119_counterexample_sql_limit (v : Variant) (close : Int64 → Int64 → Bool)
    (he : v = .mysql → ∀ i j, close i j = true ↔ i = j) :
    let ops : List Op := [.save ⟨1, "a".toList, [], false, []⟩, .save ⟨2, "b".toList, [], false, []⟩,
      .save ⟨3, "c".toList, [], false, []⟩, .regServer 1 2, .regServer 1 2, .regServer 1 3]
    ((Ref.empty.run ops).peer 1 3).isSome ∧ ((Db.empty v).run ops).AreMutuals close 1 [2, 3] [true, false] := by
  intro ops
  refine ⟨by decide, ?_⟩
  have hv : ((Db.empty v).run ops).variant = v := by cases v <;> decide
  have hx : Db.Exact ((Db.empty v).run ops) close := fun k => he (hv.symm.trans k)
  have hrow : ((Db.empty v).run ops).peers =
      [⟨bindCid v 1, "a".toList, bindCid v 2⟩, ⟨bindCid v 2, "b".toList, bindCid v 1⟩,
       ⟨bindCid v 1, "a".toList, bindCid v 2⟩, ⟨bindCid v 2, "b".toList, bindCid v 1⟩,
       ⟨bindCid v 1, "a".toList, bindCid v 3⟩, ⟨bindCid v 3, "c".toList, bindCid v 1⟩] := by
    cases v <;> decide
  have hj : ((Db.empty v).run ops).join close 1 [2, 3] =
      [⟨bindCid v 2, "b".toList, bindCid v 1⟩, ⟨bindCid v 2, "b".toList, bindCid v 1⟩,
       ⟨bindCid v 3, "c".toList, bindCid v 1⟩] := by
    have hjc : ∀ c p : Cid, Db.joinEq v close (bindCid v c) (bindCid v p) = decide (p = c) := by
      intro c p
      have := Db.joinEq_exact hx c p
      unfold Db.enc at this
      rw [hv] at this
      exact this
    unfold Db.join Db.enc
    rw [hrow, hv]
    simp [hjc, List.filter_cons]
  refine ⟨[⟨bindCid v 2, "b".toList, bindCid v 1⟩, ⟨bindCid v 2, "b".toList, bindCid v 1⟩],
    ⟨[⟨bindCid v 3, "c".toList, bindCid v 1⟩], ?_, ?_⟩, ?_⟩
  · rw [hj]; exact List.Perm.refl _
  · rw [hj]; rfl
  · simp

/-- MySQL: when the comparison of the join takes two cids for the same, the question about one is answered with the
other. -/
theorem C119_counterexample_mysql (close : Int64 → Int64 → Bool) (c p : Cid)
    (hcl : close (u64IntoI64 c) (u64IntoI64 p) = true) :
    let ops : List Op := [.save ⟨1, "a".toList, [], false, []⟩, .regClient 1 p "b".toList]
    ((Db.empty .mysql).run ops).GetPeers close 1 [c] [⟨p, some "b".toList⟩] := by
  intro ops
  have hrow : ((Db.empty .mysql).run ops).peers = [⟨bindCid .mysql p, "b".toList, bindCid .mysql 1⟩] := rfl
  have hj : ((Db.empty .mysql).run ops).join close 1 [c] = [⟨bindCid .mysql p, "b".toList, bindCid .mysql 1⟩] := by
    unfold Db.join
    rw [hrow]
    show [c].flatMap (fun c' => List.filter (fun r : PeerRow => Db.joinEq .mysql close (bindCid .mysql c') r.peer &&
      decide (r.cid = bindCid .mysql 1)) _) = _
    simp [bindCid, Db.joinEq, hcl]
  refine ⟨[⟨bindCid .mysql p, "b".toList, bindCid .mysql 1⟩], ⟨[], ?_, ?_⟩, ?_⟩
  · rw [hj]; exact List.Perm.refl _
  · rw [hj]; rfl
  · simp

/-! ### C120: the files hold what the memory holds -/

/-- The account under each cid is the same in memory and in the files. -/
def Files.Synced (w : Files) : Prop := ∀ c, w.disk.get? c = w.mem.get? c

theorem Files.mem_saveByCid (w : Files) (c : Cid) : (w.saveByCid c).1.mem = w.mem := by
  unfold Files.saveByCid; split <;> rfl

theorem Files.mem_step (w : Files) (o : Op) : (w.step o).1.mem = (w.mem.step o).1 := by
  cases o <;> simp only [Files.step, Files.mem_saveByCid]
  case delete c =>
    simp only [Memory.step]
    split <;> simp_all
  case regServer a b => (repeat' split) <;> simp_all [Files.mem_saveByCid]
  case deregServer a b => (repeat' split) <;> simp_all [Files.mem_saveByCid]
  case regClient s p n =>
    simp only [Memory.step]
    (repeat' split) <;> simp_all [Files.mem_saveByCid]
  case deregClient s p =>
    simp only [Memory.step]
    (repeat' split) <;> simp_all [Files.mem_saveByCid]

theorem Files.disk_saveByCid (w : Files) (c d : Cid) :
    (w.saveByCid c).1.disk.get? d =
      if d = c ∧ (w.mem.get? c).isSome then w.mem.get? c else w.disk.get? d := by
  unfold Files.saveByCid
  cases h : w.mem.get? c with
  | none => simp
  | some x =>
    simp only [AMap.get?_insert]
    by_cases e : d = c <;> simp [e]

theorem Files.saved (w : Files) (c : Cid) : (w.saveByCid c).2 = (w.mem.get? c).isSome := by
  unfold Files.saveByCid; split <;> simp_all

/-- An operation on one account that rewrites its file. -/
theorem Files.synced_one {w : Files} (h : w.Synced) {m : Memory} {s : Cid}
    (hm : ∀ c, c ≠ s → m.get? c = w.mem.get? c) (hn : m.get? s = none → w.mem.get? s = none) :
    (({ w with mem := m } : Files).saveByCid s).1.Synced := by
  intro c
  rw [Files.disk_saveByCid, Files.mem_saveByCid]
  by_cases e : c = s
  · subst e
    cases hx : m.get? c with
    | none => simp [h c, hn hx]
    | some x => simp
  · simp only [e, false_and, if_false]
    exact (h c).trans (hm c e).symm

theorem get?_modify_ne (m : Memory) {s c : Cid} (f : Mem → Mem) (h : c ≠ s) : (m.modify s f).get? c = m.get? c := by
  rw [Memory.get?_modify, if_neg h]

theorem get?_modify_none (m : Memory) {s : Cid} (f : Mem → Mem) (h : (m.modify s f).get? s = none) : m.get? s = none := by
  rw [Memory.get?_modify, if_pos rfl] at h
  simpa using h

/-- An operation on two accounts that rewrites both files. -/
theorem Files.synced_two {w : Files} (h : w.Synced) {m : Memory} {a b : Cid}
    (hm : ∀ c, c ≠ a → c ≠ b → m.get? c = w.mem.get? c) (ha : (m.get? a).isSome) (hb : (m.get? b).isSome) :
    (((({ w with mem := m } : Files).saveByCid a).1).saveByCid b).1.Synced := by
  intro c
  rw [Files.disk_saveByCid, Files.disk_saveByCid, Files.mem_saveByCid, Files.mem_saveByCid, Files.mem_saveByCid]
  by_cases e : c = b
  · subst e; simp [hb]
  · by_cases e' : c = a
    · subst e'; simp [e, ha]
    · simp only [e, e', false_and, if_false]
      exact (h c).trans (hm c e' e).symm

theorem Files.synced_step {cidOf : Str → Cid} {w : Ref} {f : Files} (o : Op) (hm : Memory.MPeer cidOf w f.mem)
    (hp : ServerOps cidOf w o) (hl : LonelyDelete w o) (h : f.Synced) : (f.step o).1.Synced := by
  cases o with
  | save a =>
    simp only [Files.step]
    refine Files.synced_one h (fun c e => ?_) (fun e => ?_)
    · simp only [Memory.step]; rw [AMap.get?_insert, if_neg e]
    · simp only [Memory.step, AMap.get?_insert_self] at e; simp at e
  | delete c =>
    simp only [Files.step]
    have hl : ∀ p, w.peer c p = none := hl
    have hpe : f.mem.peersOf c = [] := by
      cases hx : f.mem.peersOf c with
      | nil => rfl
      | cons e l =>
        have := hm.entry c e.cid
        rw [hl, hx] at this
        simp [Memory.entry] at this
    simp only [Memory.step, hpe, List.foldl_nil]
    split
    · split
      · intro d
        simp only [AMap.get?_erase, h d]
      · exact h
    · split
      · rename_i k; simp at k
      · exact h
  | purge => intro c; rfl
  | regServer a b =>
    obtain ⟨hab, ha, hb⟩ : a ≠ b ∧ (w.name a).isSome ∧ (w.name b).isSome := hp
    have h1 := hm.name a
    have h2 := hm.name b
    unfold Memory.nameOf at h1 h2
    cases hx : f.mem.get? a with
    | none => rw [hx] at h1; rw [← h1] at ha; simp at ha
    | some x =>
      cases hy : f.mem.get? b with
      | none => rw [hy] at h2; rw [← h2] at hb; simp at hb
      | some y =>
        have ga : ((f.mem.step (.regServer a b)).1.get? a).isSome := by
          simp [Memory.step, hx, hy, Memory.get?_modify, hab]
        have gb : ((f.mem.step (.regServer a b)).1.get? b).isSome := by
          simp [Memory.step, hx, hy, Memory.get?_modify, Ne.symm hab]
        have gm : ∀ c, c ≠ a → c ≠ b → (f.mem.step (.regServer a b)).1.get? c = f.mem.get? c := by
          intro c e e'
          simp [Memory.step, hx, hy, Memory.get?_modify, e, e']
        have ok : (f.mem.step (.regServer a b)).2 = true := by simp [Memory.step, hx, hy]
        have key := Files.synced_two h gm ga gb
        simp only [Files.step, ok, if_true, Files.saved, ga]
        exact key
  | regClient s p n => exact hp.elim
  | deregServer a b =>
    cases hx : w.peer a b with
    | none =>
      have e1 : f.mem.step (.deregServer a b) = (f.mem, false) := by
        simp only [Memory.step, hm.peerExists, hx]
        split <;> simp
      simp only [Files.step, e1]
      exact h
    | some n =>
      have hs := hm.inv.sym hx
      have hab := hm.inv.irrefl hx
      have hca : f.mem.contains a = true := by rw [Memory.contains_eq, hm.name]; exact hm.inv.selfNamed hx
      have hcb : f.mem.contains b = true := by rw [Memory.contains_eq, hm.name, hm.inv.peerNamed hx]; rfl
      have hba : (f.mem.dropPeer a b).peerExists b a = true := by
        rw [Memory.peerExists_eq, Memory.peersOf_dropPeer, if_neg (Ne.symm hab), ← Memory.peerExists_eq, hm.peerExists, hs]
      have e1 : f.mem.step (.deregServer a b) = ((f.mem.dropPeer a b).dropPeer b a, true) := by
        simp only [Memory.step, hca, hcb, hm.peerExists, hx, Bool.and_self, if_true, Option.isSome_some, hba]
      have ga : (((f.mem.dropPeer a b).dropPeer b a).get? a).isSome := by
        have := Memory.contains_eq ((f.mem.dropPeer a b).dropPeer b a) a
        rw [Memory.nameOf_dropPeer, Memory.nameOf_dropPeer, ← Memory.contains_eq, hca] at this
        exact this
      have gb : (((f.mem.dropPeer a b).dropPeer b a).get? b).isSome := by
        have := Memory.contains_eq ((f.mem.dropPeer a b).dropPeer b a) b
        rw [Memory.nameOf_dropPeer, Memory.nameOf_dropPeer, ← Memory.contains_eq, hcb] at this
        exact this
      have gm : ∀ c, c ≠ a → c ≠ b → ((f.mem.dropPeer a b).dropPeer b a).get? c = f.mem.get? c := by
        intro c e e'
        unfold Memory.dropPeer
        rw [get?_modify_ne _ _ e', get?_modify_ne _ _ e]
      have key := Files.synced_two h gm ga gb
      simp only [Files.step, e1, if_true, Files.saved, ga]
      exact key
  | deregClient s p => exact hp.elim
  | sync s ps => exact hp.elim
  | store x v =>
    exact Files.synced_one h (fun c e => get?_modify_ne _ _ e) (fun e => get?_modify_none _ _ e)
  | remove x =>
    exact Files.synced_one h (fun c e => get?_modify_ne _ _ e) (fun e => get?_modify_none _ _ e)
  | removeAll s p key =>
    exact Files.synced_one h (fun c e => get?_modify_ne _ _ e) (fun e => get?_modify_none _ _ e)

/-- After the history of a server in which no pair is registered twice and only accounts without peers are deleted, a new
process finds in the files exactly the accounts, lists of peers and values that the old one had in memory. -/
theorem C120_restart_partial (cidOf : Str → Cid) (ops : List Op) (h : Along (ServerOps cidOf) Ref.empty ops)
    (hn : Along NewPeers Ref.empty ops) (hl : Along LonelyDelete Ref.empty ops) (c : Cid) :
    let f := Files.run ⟨[], []⟩ ops
    f.restart.mem.get? c = f.mem.get? c ∧ f.mem.get? c = (Memory.run [] ops).get? c := by
  intro f
  have hr : Memory.MPeer cidOf (Ref.empty.run ops) f.mem ∧ f.Synced := by
    refine Along.run (P := fun w o => (ServerOps cidOf w o ∧ NewPeers w o) ∧ LonelyDelete w o)
      (R := fun w (f : Files) => Memory.MPeer cidOf w f.mem ∧ f.Synced) (f := fun w o => (w.step o).1)
      (fun w f o hp h => ?_)
      ops Ref.empty ⟨[], []⟩ ((h.and hn).and hl) ⟨Memory.MPeer.empty cidOf, fun _ => rfl⟩
    refine ⟨?_, Files.synced_step o h.1 hp.1.1 hp.2 h.2⟩
    rw [Files.mem_step]
    exact h.1.step o hp.1.1 hp.1.2
  refine ⟨hr.2 c, ?_⟩
  have : ∀ (l : List Op) (g : Files), (g.run l).mem = Memory.run g.mem l := by
    intro l
    induction l with
    | nil => intro g; rfl
    | cons o l ih =>
      intro g
      show ((g.step o).1.run l).mem = Memory.run (g.mem.step o).1 l
      rw [ih, Files.mem_step]
  show (Files.run ⟨[], []⟩ ops).mem.get? c = _
  rw [this]

/-- The file of a peer of a deleted account is not rewritten: after a restart the peer still has it. -/
theorem C120_counterexample_delete :
    let ops : List Op := [.save ⟨1, "a".toList, [], false, []⟩, .save ⟨2, "b".toList, [], false, []⟩, .regServer 1 2,
      .delete 1]
    let f := Files.run ⟨[], []⟩ ops
    f.mem.peerExists 2 1 = false ∧ f.restart.mem.peerExists 2 1 = true ∧ f.restart.mem.get? 1 = none := by
  decide

/-- And if the name is registered again, the new account is a peer of an account that it never registered with. -/
theorem C120_counterexample_again :
    let ops : List Op := [.save ⟨1, "a".toList, [], false, []⟩, .save ⟨2, "b".toList, [], false, []⟩, .regServer 1 2,
      .delete 1]
    let f := ((Files.run ⟨[], []⟩ ops).restart.step (.save ⟨1, "a".toList, [], false, []⟩)).1
    f.mem.peerExists 2 1 = true ∧ f.mem.peerExists 1 2 = false := by
  decide

/-- A deregistration that fails half-way changes the memory and not the files. -/
theorem C120_counterexample_dereg :
    let ops : List Op := [.save ⟨1, "a".toList, [], false, []⟩, .save ⟨2, "b".toList, [], false, []⟩, .regServer 1 2,
      .deregClient 2 1, .deregServer 1 2]
    let f := Files.run ⟨[], []⟩ ops
    f.mem.peerExists 1 2 = false ∧ f.restart.mem.peerExists 1 2 = true := by
  decide

/-! ### The conditions are met by histories that do something -/

/-- Two accounts; values, a registration, a deregistration, a deletion. -/
def history : List Op :=
  [.save ⟨1, "a".toList, [], false, []⟩, .save ⟨2, "b".toList, [], false, []⟩, .regServer 1 2,
   .store ⟨1, 2, "k".toList, "s".toList⟩ "x".toList, .store ⟨1, 2, "k".toList, "t".toList⟩ "y".toList,
   .remove ⟨1, 2, "k".toList, "s".toList⟩, .store ⟨1, 2, "k".toList, "s".toList⟩ "z".toList,
   .deregServer 1 2, .save ⟨3, "c".toList, [], true, []⟩, .regServer 1 3, .delete 2]

def cidOf (u : Str) : Cid := if u = "a".toList then 1 else if u = "b".toList then 2 else 3

example : Along FreshAccounts Ref.empty history ∧ Along NoOverwrite Ref.empty history ∧
    Along NoDuplicates Ref.empty history ∧ Along NewPeers Ref.empty history ∧
    Along (ServerOps cidOf) Ref.empty history := by
  refine ⟨?_, ?_, ?_, ?_, ?_⟩ <;> simp only [history, Along, FreshAccounts, NoOverwrite, NoDuplicates, NewPeers, ServerOps] <;>
    decide

example : Along EmptyDelete Ref.empty history ∧ Along LonelyDelete Ref.empty history := by
  have he : ∀ x : Slot, x.session = 2 → (Ref.empty.run (history.take 10)).byte x = none := by
    intro x hx
    have h1 : x ≠ ⟨1, 2, "k".toList, "s".toList⟩ := fun e => by rw [e] at hx; revert hx; decide
    have h2 : x ≠ ⟨1, 2, "k".toList, "t".toList⟩ := fun e => by rw [e] at hx; revert hx; decide
    show (if x = _ then _ else if x = _ then _ else if x = _ then _ else if x = _ then _ else none) = none
    rw [if_neg h1, if_neg h1, if_neg h2, if_neg h1]
  have hl : ∀ p : Cid, (Ref.empty.run (history.take 10)).peer 2 p = none := by
    intro p
    simp [history, Ref.run, Ref.step, Ref.empty]
  simp only [history, Along, EmptyDelete, LonelyDelete]
  exact ⟨⟨trivial, trivial, trivial, rfl, rfl, trivial, rfl, trivial, trivial, trivial, he, trivial⟩,
    ⟨trivial, trivial, trivial, trivial, trivial, trivial, trivial, trivial, trivial, trivial, hl, trivial⟩⟩

example : (Ref.empty.run history).byte ⟨1, 2, "k".toList, "s".toList⟩ = some "z".toList ∧
    (Ref.empty.run history).peer 3 1 = some "a".toList ∧ (Ref.empty.run history).peer 1 2 = none ∧
    (Ref.empty.run history).name 2 = none := by decide

end Verif.Backends

import Verif.Backends.Props
/-
The fields of the hashes of peers in the Redis store are cids, whatever was done to the store.
-/
namespace Verif.Backends
open Verif
namespace Redis

/-- No field twice, and the fields of the hashes of peers are cids. -/
structure Fields (r : Redis) : Prop where
  nodup : ∀ k, AMap.NodupKeys (r.hash k)
  cid : ∀ k f, kind k = 4 → (r.hget k f).isSome → ∃ q, f = dec q

theorem Fields.put {r : Redis} (h : Fields r) (k : Str) (v : RVal) (hv : ∀ m, v = .hash m → AMap.NodupKeys m ∧
    (kind k = 4 → ∀ f, (m.get? f).isSome → ∃ q, f = dec q)) : Fields (r.put k v) := by
  have hs : (r.put k v).hash k = match v with | .hash m => m | _ => [] := by
    simp only [hash, Redis.put, AMap.get?_insert_self]
    cases v <;> rfl
  constructor
  · intro k'
    rcases Decidable.em (k' = k) with rfl | hne
    · rw [hs]
      cases v with
      | hash m => exact (hv m rfl).1
      | _ => exact AMap.nodupKeys_nil
    · rw [hash_put_ne hne]; exact h.nodup k'
  · intro k' f hk hf
    unfold hget at hf
    rcases Decidable.em (k' = k) with rfl | hne
    · rw [hs] at hf
      cases v with
      | hash m => exact (hv m rfl).2 hk f hf
      | _ => simp at hf
    · rw [hash_put_ne hne] at hf
      exact h.cid k' f hk hf

theorem Fields.set {r : Redis} (h : Fields r) (k v : Str) : Fields (r.set k v) := h.put k _ (by simp)
theorem Fields.sadd {r : Redis} (h : Fields r) (k v : Str) : Fields (r.sadd k v) := h.put k _ (by simp)
theorem Fields.srem {r : Redis} (h : Fields r) (k v : Str) : Fields (r.srem k v) := h.put k _ (by simp)

theorem Fields.hset {r : Redis} (h : Fields r) (k f v : Str) (hf : kind k = 4 → ∃ q, f = dec q) : Fields (r.hset k f v) := by
  refine h.put k _ ?_
  intro m hm
  cases hm
  refine ⟨AMap.nodupKeys_insert (h.nodup k) _ _, fun hk g hg => ?_⟩
  rw [AMap.get?_insert] at hg
  split at hg
  · rename_i e; rw [e]; exact hf hk
  · exact h.cid k g hk hg

theorem Fields.hdel {r : Redis} (h : Fields r) (k f : Str) : Fields (r.hdel k f) := by
  refine h.put k _ ?_
  intro m hm
  cases hm
  refine ⟨AMap.nodupKeys_erase (h.nodup k) _, fun hk g hg => ?_⟩
  rw [AMap.get?_erase] at hg
  split at hg
  · simp at hg
  · exact h.cid k g hk hg

theorem Fields.del {r : Redis} (h : Fields r) (k : Str) : Fields (r.del k) := by
  constructor
  · intro k'
    rcases Decidable.em (k' = k) with rfl | hne
    · rw [hash_del_self]; exact AMap.nodupKeys_nil
    · rw [hash_del_ne hne]; exact h.nodup k'
  · intro k' f hk hf
    rw [hget_del] at hf
    split at hf
    · simp at hf
    · exact h.cid k' f hk hf

theorem Fields.cnacs {r : Redis} (h : Fields r) (m : AMap Str Acct) : Fields { r with cnacs := m } := ⟨h.nodup, h.cid⟩

theorem Fields.dropAtPeers {r : Redis} (h : Fields r) (u c : Str) (ps : List Str) : Fields (Redis.dropAtPeers u c r ps) := by
  unfold Redis.dropAtPeers
  induction ps generalizing r with
  | nil => exact h
  | cons p ps ih => exact ih ((h.hdel _ _).hdel _ _)

theorem Fields.addPeers {r : Redis} (h : Fields r) (s : Cid) (ps : List Peer) : Fields (ps.foldl (addPeer s) r) := by
  induction ps generalizing r with
  | nil => exact h
  | cons p ps ih =>
    refine ih ?_
    unfold addPeer
    split
    · exact (h.hset _ _ _ fun _ => ⟨p.cid, rfl⟩).hset _ _ _ (by simp [peerCidKey])
    · exact h

theorem Fields.empty : Fields empty := by
  constructor
  · intro k; exact AMap.nodupKeys_nil
  · intro k f _ h; simp [Redis.empty, hget, hash] at h

theorem Fields.step {r : Redis} (h : Fields r) (o : Op) : Fields (r.step o).1 := by
  cases o with
  | save a => exact (((h.set _ _).cnacs _).set _ _).sadd _ _
  | delete c =>
    simp only [Redis.step, deleteCnac]
    split
    · exact h
    · exact ((((((((h.del _).del _).cnacs _).del _).del _).srem _ _).srem _ _).dropAtPeers _ _ _)
  | purge => exact Fields.empty
  | regServer a b =>
    simp only [Redis.step, regServer]
    split
    · exact h
    · split
      · exact h.hset _ _ _ fun _ => ⟨b, rfl⟩
      · exact (((h.hset _ _ _ fun _ => ⟨b, rfl⟩).hset _ _ _ fun _ => ⟨a, rfl⟩).hset _ _ _ (by simp [peerCidKey])).hset _ _ _
          (by simp [peerCidKey])
  | regClient s p n => exact (h.hset _ _ _ fun _ => ⟨p, rfl⟩).hset _ _ _ (by simp [peerCidKey])
  | deregServer a b =>
    simp only [Redis.step, deregServer]
    split
    · exact h
    · split
      · exact h.hdel _ _
      · exact (((h.hdel _ _).hdel _ _).hdel _ _).hdel _ _
  | deregClient s p =>
    simp only [Redis.step]
    split
    · exact h
    · exact (h.hdel _ _).hdel _ _
  | sync s ps => exact ((h.del _).del _).addPeers s ps
  | store x v => exact h.hset _ _ _ (by simp)
  | remove x => exact h.hdel _ _
  | removeAll s p k => exact h.del _

theorem Fields.run (ops : List Op) : Fields (Redis.empty.run ops) := by
  suffices H : ∀ (ops : List Op) (r : Redis), Fields r → Fields (r.run ops) from H ops _ Fields.empty
  intro ops
  induction ops with
  | nil => intro r h; exact h
  | cons o ops ih => intro r h; exact ih _ (h.step o)

/-- The list of peers has those, and only those, that `hyperlan_peer_exists` finds, each once. -/
theorem Fields.list {r : Redis} (h : Fields r) (s : Cid) :
    ∃ l, r.peerList s = some l ∧ l.Nodup ∧ ∀ q, q ∈ l ↔ r.peerExists s q = true := by
  have hk : ∀ f ∈ r.hkeys (peerUsernameKey s), ∃ q, f = dec q := by
    intro f hf
    refine h.cid (peerUsernameKey s) f (by simp) ?_
    exact (AMap.mem_keys_iff _ _).mp hf
  have hn : (r.hkeys (peerUsernameKey s)).Nodup := h.nodup _
  have hx : ∀ l : List Str, (∀ f ∈ l, ∃ q, f = dec q) → l.Nodup → ∃ c, l.mapM undec = some c ∧ c.Nodup ∧ ∀ q, q ∈ c ↔ dec q ∈ l := by
    intro l
    induction l with
    | nil => intro _ _; exact ⟨[], rfl, List.nodup_nil, by simp⟩
    | cons f l ih =>
      intro hf hd
      obtain ⟨q, rfl⟩ := hf f List.mem_cons_self
      obtain ⟨hd1, hd2⟩ := List.nodup_cons.mp hd
      obtain ⟨c, hc, hcn, hcm⟩ := ih (fun g hg => hf g (List.mem_cons_of_mem _ hg)) hd2
      refine ⟨q :: c, ?_, ?_, ?_⟩
      · simp [List.mapM_cons, hc]
      · exact List.nodup_cons.mpr ⟨fun e => hd1 ((hcm q).mp e), hcn⟩
      · intro x
        simp only [List.mem_cons, hcm]
        constructor
        · rintro (rfl | hx)
          · exact .inl rfl
          · exact .inr hx
        · rintro (hx | hx)
          · left
            have := congrArg undec hx
            simpa using this
          · exact .inr hx
  obtain ⟨c, hc, hcn, hcm⟩ := hx _ hk hn
  refine ⟨c, hc, hcn, fun q => (hcm q).trans ?_⟩
  unfold peerExists hexists AMap.contains
  exact AMap.mem_keys_iff _ _

end Redis

/-- C118, Redis: the list of peers can always be read, whatever was done to the store, and has those that
`hyperlan_peer_exists` finds, each once; for the histories of a server these are the peers of the account. -/
theorem C118_redis_list_partial (ops : List Op) (s : Cid) :
    ∃ l, (Redis.empty.run ops).peerList s = some l ∧ l.Nodup ∧
      (∀ q, q ∈ l ↔ (Redis.empty.run ops).peerExists s q = true) ∧
      ∀ cidOf, Along (ServerOps cidOf) Ref.empty ops → ∀ q, q ∈ l ↔ ((Ref.empty.run ops).peer s q).isSome := by
  obtain ⟨l, hl, hn, hm⟩ := (Redis.Fields.run ops).list s
  refine ⟨l, hl, hn, hm, fun cidOf h q => ?_⟩
  rw [hm q, (C118_redis_partial cidOf ops h s q).1]

end Verif.Backends

import Verif.Backends.Keys
import Verif.Backends.Spec
/-
The Redis store follows the reference.
-/
namespace Verif.Backends
open Verif

/-- A relation kept by every operation of a history holds at its end. -/
theorem Along.run {σ : Type} {P : Ref → Op → Prop} {R : Ref → σ → Prop} {f : σ → Op → σ}
    (hs : ∀ w s o, P w o → R w s → R (w.step o) (f s o)) :
    ∀ (ops : List Op) (w : Ref) (s : σ), Along P w ops → R w s → R (w.run ops) (ops.foldl f s)
  | [], _, _, _, h => h
  | o :: ops, w, s, ha, h => Along.run hs ops (w.step o) (f s o) ha.2 (hs w s o ha.1 h)

theorem Along.and {P Q : Ref → Op → Prop} : ∀ {ops : List Op} {w : Ref}, Along P w ops → Along Q w ops →
    Along (fun w o => P w o ∧ Q w o) w ops
  | [], _, _, _ => trivial
  | _ :: _, _, h, h' => ⟨⟨h.1, h'.1⟩, h.2.and h'.2⟩

namespace Redis
set_option linter.unusedSimpArgs false

@[simp] theorem hash_put_self (r : Redis) (k : Str) (m : AMap Str Str) : (r.put k (.hash m)).hash k = m := by
  simp [hash, put]

theorem hash_put_ne {k k' : Str} (h : k' ≠ k) (r : Redis) (v : RVal) : (r.put k v).hash k' = r.hash k' := by
  simp [hash, put, AMap.get?_insert_ne _ _ h]

theorem get_put_ne {k k' : Str} (h : k' ≠ k) (r : Redis) (v : RVal) : (r.put k v).get k' = r.get k' := by
  simp [get, put, AMap.get?_insert_ne _ _ h]

@[simp] theorem get_set_self (r : Redis) (k v : Str) : (r.set k v).get k = some v := by
  simp [get, set, put]

@[simp] theorem hash_del_self (r : Redis) (k : Str) : (r.del k).hash k = [] := by simp [hash, del]
@[simp] theorem get_del_self (r : Redis) (k : Str) : (r.del k).get k = none := by simp [get, del]

theorem hash_del_ne {k k' : Str} (h : k' ≠ k) (r : Redis) : (r.del k).hash k' = r.hash k' := by
  simp [hash, del, AMap.get?_erase_ne _ h]

theorem get_del_ne {k k' : Str} (h : k' ≠ k) (r : Redis) : (r.del k).get k' = r.get k' := by
  simp [get, del, AMap.get?_erase_ne _ h]

@[simp] theorem hash_cnacs (r : Redis) (m : AMap Str Acct) (k : Str) :
    ({ r with cnacs := m } : Redis).hash k = r.hash k := rfl
@[simp] theorem get_cnacs (r : Redis) (m : AMap Str Acct) (k : Str) :
    ({ r with cnacs := m } : Redis).get k = r.get k := rfl

/-! ### What the commands leave alone -/

theorem hash_set_ne {k k' : Str} (h : k' ≠ k) (r : Redis) (v : Str) : (r.set k v).hash k' = r.hash k' :=
  hash_put_ne h _ _
theorem get_set_ne {k k' : Str} (h : k' ≠ k) (r : Redis) (v : Str) : (r.set k v).get k' = r.get k' :=
  get_put_ne h _ _
theorem hash_sadd_ne {k k' : Str} (h : k' ≠ k) (r : Redis) (v : Str) : (r.sadd k v).hash k' = r.hash k' :=
  hash_put_ne h _ _
theorem get_sadd_ne {k k' : Str} (h : k' ≠ k) (r : Redis) (v : Str) : (r.sadd k v).get k' = r.get k' :=
  get_put_ne h _ _
theorem hash_srem_ne {k k' : Str} (h : k' ≠ k) (r : Redis) (v : Str) : (r.srem k v).hash k' = r.hash k' :=
  hash_put_ne h _ _
theorem get_srem_ne {k k' : Str} (h : k' ≠ k) (r : Redis) (v : Str) : (r.srem k v).get k' = r.get k' :=
  get_put_ne h _ _

theorem get_hset_ne {k k' : Str} (h : k' ≠ k) (r : Redis) (f v : Str) : (r.hset k f v).get k' = r.get k' :=
  get_put_ne h _ _
theorem get_hdel_ne {k k' : Str} (h : k' ≠ k) (r : Redis) (f : Str) : (r.hdel k f).get k' = r.get k' :=
  get_put_ne h _ _

theorem hget_hset (r : Redis) (k k' f f' v : Str) :
    (r.hset k f v).hget k' f' = if k' = k ∧ f' = f then some v else r.hget k' f' := by
  unfold hset hget
  rcases Decidable.em (k' = k) with h | h
  · subst h
    rw [hash_put_self, AMap.get?_insert]
    simp
  · rw [hash_put_ne h]
    simp [h]

theorem hget_hdel (r : Redis) (k k' f f' : Str) :
    (r.hdel k f).hget k' f' = if k' = k ∧ f' = f then none else r.hget k' f' := by
  unfold hdel hget
  rcases Decidable.em (k' = k) with h | h
  · subst h
    rw [hash_put_self, AMap.get?_erase]
    simp
  · rw [hash_put_ne h]
    simp [h]

theorem hget_del (r : Redis) (k k' f' : Str) :
    (r.del k).hget k' f' = if k' = k then none else r.hget k' f' := by
  unfold hget
  rcases Decidable.em (k' = k) with h | h
  · subst h; simp
  · rw [hash_del_ne h]; simp [h]

theorem hget_set_ne {k k' : Str} (h : k' ≠ k) (r : Redis) (v f : Str) : (r.set k v).hget k' f = r.hget k' f := by
  unfold hget; rw [hash_set_ne h]
theorem hget_sadd_ne {k k' : Str} (h : k' ≠ k) (r : Redis) (v f : Str) : (r.sadd k v).hget k' f = r.hget k' f := by
  unfold hget; rw [hash_sadd_ne h]
theorem hget_srem_ne {k k' : Str} (h : k' ≠ k) (r : Redis) (v f : Str) : (r.srem k v).hget k' f = r.hget k' f := by
  unfold hget; rw [hash_srem_ne h]
@[simp] theorem hget_cnacs (r : Redis) (m : AMap Str Acct) (k f : Str) :
    ({ r with cnacs := m } : Redis).hget k f = r.hget k f := rfl

/-! ### Keys of different kinds -/

@[simp] theorem kind_peerCid (p : Str) : kind (peerCidPrefix ++ '.' :: p) = 3 := by unfold peerCidPrefix; rfl
@[simp] theorem kind_peerUsername (p : Str) : kind (peerUsernamePrefix ++ '.' :: p) = 4 := by
  unfold peerUsernamePrefix; rfl

theorem status_ne {k : Str} (h : kind k ≠ 6) (h' : kind k ≠ 7) (b : Bool) :
    k ≠ if b = true then personalKey else impersonalKey := by
  cases b
  · exact ne_of_kind (by simpa using h)
  · exact ne_of_kind (by simpa using h')

/-- `save_cnac` and the hashes. -/
theorem hget_saveCnac (r : Redis) (a : Acct) {k : Str} (h1 : kind k ≠ 1) (h5 : kind k ≠ 5) (h6 : kind k ≠ 6)
    (h7 : kind k ≠ 7) (f : Str) : (r.saveCnac a).hget k f = r.hget k f := by
  unfold saveCnac
  rw [hget_sadd_ne (status_ne h6 h7 _), hget_set_ne (ne_of_kind (by simpa using h5)), hget_cnacs,
    hget_set_ne (ne_of_kind (by simpa using h1))]

theorem get_saveCnac (r : Redis) (a : Acct) (c : Cid) :
    (r.saveCnac a).get (cidToUsernameKey c) = if c = a.cid then some a.username else r.get (cidToUsernameKey c) := by
  unfold saveCnac
  rw [get_sadd_ne (status_ne (by simp) (by simp) _)]
  rcases Decidable.em (c = a.cid) with h | h
  · subst h; simp
  · rw [get_set_ne (by simpa using h), get_cnacs, get_set_ne (ne_of_kind (by simp))]
    simp [h]

/-- The loop of `delete_cnac_by_cid`. -/
theorem hget_dropAtPeers (u c : Str) (k f : Str) : ∀ (ps : List Str) (r : Redis),
    (dropAtPeers u c r ps).hget k f =
      if (∃ p ∈ ps, (k = peerCidPrefix ++ '.' :: p ∧ f = u) ∨ (k = peerUsernamePrefix ++ '.' :: p ∧ f = c)) then none
      else r.hget k f
  | [], r => by simp [dropAtPeers]
  | p :: ps, r => by
    have ih := hget_dropAtPeers u c k f ps ((r.hdel (peerCidPrefix ++ '.' :: p) u).hdel (peerUsernamePrefix ++ '.' :: p) c)
    unfold dropAtPeers at ih ⊢
    rw [List.foldl_cons, ih, hget_hdel, hget_hdel]
    simp only [List.mem_cons, exists_eq_or_imp]
    by_cases hE : ∃ p ∈ ps, (k = peerCidPrefix ++ '.' :: p ∧ f = u) ∨ (k = peerUsernamePrefix ++ '.' :: p ∧ f = c)
    · rw [if_pos hE, if_pos (Or.inr hE)]
    · by_cases hA : k = peerCidPrefix ++ '.' :: p ∧ f = u
      · rw [if_neg hE, if_pos hA, if_pos (Or.inl (Or.inl hA))]
        split <;> rfl
      · by_cases hB : k = peerUsernamePrefix ++ '.' :: p ∧ f = c
        · rw [if_neg hE, if_pos hB, if_pos (Or.inl (Or.inr hB))]
        · rw [if_neg hE, if_neg hB, if_neg hA, if_neg]
          rintro ((h | h) | h)
          · exact hA h
          · exact hB h
          · exact hE h

theorem get_dropAtPeers (u c : Str) {k : Str} (h3 : kind k ≠ 3) (h4 : kind k ≠ 4) : ∀ (ps : List Str) (r : Redis),
    (dropAtPeers u c r ps).get k = r.get k
  | [], r => rfl
  | p :: ps, r => by
    have ih := get_dropAtPeers u c h3 h4 ps ((r.hdel (peerCidPrefix ++ '.' :: p) u).hdel (peerUsernamePrefix ++ '.' :: p) c)
    unfold dropAtPeers at ih ⊢
    rw [List.foldl_cons, ih, get_hdel_ne (ne_of_kind (by simpa using h4)), get_hdel_ne (ne_of_kind (by simpa using h3))]

/-- `delete_cnac_by_cid` and the hashes it does not name. -/
theorem hget_deleteCnac_other (r : Redis) (c : Cid) {k : Str} (h1 : kind k ≠ 1) (h3 : kind k ≠ 3) (h4 : kind k ≠ 4)
    (h5 : kind k ≠ 5) (h6 : kind k ≠ 6) (h7 : kind k ≠ 7) (f : Str) : (r.deleteCnac c).1.hget k f = r.hget k f := by
  unfold deleteCnac
  split
  · rfl
  · rw [hget_dropAtPeers, if_neg, hget_srem_ne (ne_of_kind (by simpa using h6)),
      hget_srem_ne (ne_of_kind (by simpa using h7)), hget_del, if_neg (ne_of_kind (by simpa using h5)), hget_del,
      if_neg (ne_of_kind (by simpa using h3)), hget_cnacs, hget_del, if_neg (ne_of_kind (by simpa using h4)), hget_del,
      if_neg (ne_of_kind (by simpa using h1))]
    rintro ⟨p, -, ⟨e, -⟩ | ⟨e, -⟩⟩
    · exact h3 (e ▸ kind_peerCid p)
    · exact h4 (e ▸ kind_peerUsername p)

/-! ### Byte map -/

/-- The values of the byte map are those of the reference. -/
def RByte (w : Ref) (r : Redis) : Prop := ∀ x, r.getByte x = w.byte x

theorem hget_regServer (r : Redis) (a b : Cid) {k : Str} (h3 : kind k ≠ 3) (h4 : kind k ≠ 4) (f : Str) :
    (r.regServer a b).1.hget k f = r.hget k f := by
  have e3 (c : Cid) : k ≠ peerCidKey c := ne_of_kind (by simpa using h3)
  have e4 (c : Cid) : k ≠ peerUsernameKey c := ne_of_kind (by simpa using h4)
  unfold regServer
  cases r.get (cidToUsernameKey a) <;> cases r.get (cidToUsernameKey b) <;>
    simp [hget_hset, e3, e4]

theorem hget_deregServer (r : Redis) (a b : Cid) {k : Str} (h3 : kind k ≠ 3) (h4 : kind k ≠ 4) (f : Str) :
    (r.deregServer a b).1.hget k f = r.hget k f := by
  have e3 (c : Cid) : k ≠ peerCidKey c := ne_of_kind (by simpa using h3)
  have e4 (c : Cid) : k ≠ peerUsernameKey c := ne_of_kind (by simpa using h4)
  unfold deregServer
  cases r.get (cidToUsernameKey a) <;> cases r.get (cidToUsernameKey b) <;>
    simp [hget_hdel, e3, e4]

theorem hget_sync (s : Cid) {k : Str} (h3 : kind k ≠ 3) (h4 : kind k ≠ 4) (f : Str) : ∀ (ps : List Peer) (r : Redis),
    (ps.foldl (addPeer s) r).hget k f = r.hget k f
  | [], r => rfl
  | p :: ps, r => by
    have e3 (c : Cid) : k ≠ peerCidKey c := ne_of_kind (by simpa using h3)
    have e4 (c : Cid) : k ≠ peerUsernameKey c := ne_of_kind (by simpa using h4)
    rw [List.foldl_cons, hget_sync s h3 h4 f ps]
    unfold addPeer
    split <;> simp [hget_hset, e3, e4]

theorem RByte.step {w : Ref} {r : Redis} (o : Op) (hp : EmptyDelete w o) (h : RByte w r) :
    RByte (w.step o) (r.step o).1 := by
  have e3 (x : Slot) (c : Cid) : byteMapKey x.session x.peer x.key ≠ peerCidKey c := ne_of_kind (by simp)
  have e4 (x : Slot) (c : Cid) : byteMapKey x.session x.peer x.key ≠ peerUsernameKey c := ne_of_kind (by simp)
  intro x
  have hx := h x
  unfold getByte at hx ⊢
  cases o with
  | save a => simpa [Redis.step, Ref.step, hget_saveCnac] using hx
  | delete c =>
    have hp : ∀ x : Slot, x.session = c → w.byte x = none := hp
    have e : (w.step (.delete c)).byte x = w.byte x := by
      simp only [Ref.step]
      split
      · by_cases k : x.session = c
        · simp only [k, if_true]; exact (hp x k).symm
        · simp only [k, if_false]
      · rfl
    rw [e]
    simp only [Redis.step]
    rw [hget_deleteCnac_other] <;> simp [hx]
  | purge => rfl
  | regServer a b =>
    have : (w.step (.regServer a b)).byte = w.byte := by simp only [Ref.step]; split <;> rfl
    simpa [Redis.step, hget_regServer, this] using hx
  | regClient s p n =>
    have : (w.step (.regClient s p n)).byte = w.byte := by simp only [Ref.step]; split <;> rfl
    simpa [Redis.step, hget_hset, e3, e4, this] using hx
  | deregServer a b => simpa [Redis.step, hget_deregServer, Ref.step] using hx
  | deregClient s p =>
    have : (r.step (.deregClient s p)).1.hget (byteMapKey x.session x.peer x.key) x.sub =
        r.hget (byteMapKey x.session x.peer x.key) x.sub := by
      simp only [Redis.step]; split <;> simp [hget_hdel, e3, e4]
    rw [this]
    exact hx
  | sync s ps =>
    have : (w.step (.sync s ps)).byte = w.byte := by simp only [Ref.step]; split <;> rfl
    rw [this]
    simp only [Redis.step]
    rw [hget_sync s (by simp) (by simp), hget_del, if_neg (e4 x s), hget_del, if_neg (e3 x s)]
    exact hx
  | store y v =>
    simp only [EmptyDelete] at hp
    simp only [Redis.step, Ref.step, hp, if_true, hget_hset, byteMapKey_eq, hx]
    have : ((x.session = y.session ∧ x.peer = y.peer ∧ x.key = y.key) ∧ x.sub = y.sub) ↔ x = y := by
      constructor
      · intro h; cases x; cases y; simp_all
      · rintro rfl; simp
    simp only [this]
  | remove y =>
    simp only [Redis.step, Ref.step, hget_hdel, byteMapKey_eq, hx]
    have : ((x.session = y.session ∧ x.peer = y.peer ∧ x.key = y.key) ∧ x.sub = y.sub) ↔ x = y := by
      constructor
      · intro h; cases x; cases y; simp_all
      · rintro rfl; simp
    simp only [this]
  | removeAll s p key =>
    simp only [Redis.step, Ref.step, hget_del, byteMapKey_eq, hx]

end Redis
end Verif.Backends

import Verif.Backends.RedisLemmas
/-
The lists of peers in the Redis store of a server follow the reference.
-/
namespace Verif.Backends
open Verif

/-- What the operations of a server keep true of the reference. -/
structure RefInv (cidOf : Str → Cid) (w : Ref) : Prop where
  named : ∀ {c u}, w.name c = some u → cidOf u = c
  peerNamed : ∀ {s p n}, w.peer s p = some n → w.name p = some n
  selfNamed : ∀ {s p n}, w.peer s p = some n → (w.name s).isSome
  sym : ∀ {s p n}, w.peer s p = some n → (w.peer p s).isSome
  irrefl : ∀ {s p n}, w.peer s p = some n → s ≠ p

theorem RefInv.empty (cidOf : Str → Cid) : RefInv cidOf Ref.empty := by
  constructor <;> intros <;> simp_all [Ref.empty]

theorem RefInv.step {cidOf : Str → Cid} {w : Ref} (h : RefInv cidOf w) (o : Op) (hp : ServerOps cidOf w o) :
    RefInv cidOf (w.step o) := by
  obtain ⟨h1, h2, h3, h4, h5⟩ := h
  cases o with
  | save a =>
    simp only [ServerOps] at hp
    constructor <;> (simp only [Ref.step]; grind)
  | delete c =>
    simp only [Ref.step]
    split
    · constructor <;> (simp only []; grind)
    · exact ⟨h1, h2, h3, h4, h5⟩
  | purge => exact RefInv.empty cidOf
  | regServer a b =>
    simp only [ServerOps] at hp
    simp only [Ref.step]
    split
    · constructor <;> (simp only []; grind)
    · exact ⟨h1, h2, h3, h4, h5⟩
  | regClient s p n => exact hp.elim
  | deregServer a b => constructor <;> (simp only [Ref.step]; grind)
  | deregClient s p => exact hp.elim
  | sync s ps => exact hp.elim
  | store x v =>
    simp only [Ref.step]
    split <;> exact ⟨h1, h2, h3, h4, h5⟩
  | remove x => exact ⟨h1, h2, h3, h4, h5⟩
  | removeAll s p k => exact ⟨h1, h2, h3, h4, h5⟩

namespace Redis
set_option linter.unusedSimpArgs false

/-- Names and both hashes of peers. -/
structure RPeer (cidOf : Str → Cid) (w : Ref) (r : Redis) : Prop where
  inv : RefInv cidOf w
  name : ∀ c, r.get (cidToUsernameKey c) = w.name c
  peer : ∀ s p, r.hget (peerUsernameKey s) (dec p) = w.peer s p
  cid : ∀ s u, r.hget (peerCidKey s) u = if w.peer s (cidOf u) = some u then some (dec (cidOf u)) else none

theorem peerUsername_ne_peerCid (s t : Cid) : peerUsernameKey s ≠ peerCidKey t := ne_of_kind (by simp)
theorem peerCid_ne_peerUsername (s t : Cid) : peerCidKey s ≠ peerUsernameKey t := ne_of_kind (by simp)

/-- A store in which nothing of the peers changed. -/
theorem RPeer.same {cidOf : Str → Cid} {w w' : Ref} {r r' : Redis} (h : RPeer cidOf w r) (hn : w'.name = w.name)
    (hp : w'.peer = w.peer) (e1 : ∀ c, r'.get (cidToUsernameKey c) = r.get (cidToUsernameKey c))
    (e2 : ∀ s f, r'.hget (peerUsernameKey s) f = r.hget (peerUsernameKey s) f)
    (e3 : ∀ s f, r'.hget (peerCidKey s) f = r.hget (peerCidKey s) f) : RPeer cidOf w' r' := by
  obtain ⟨⟨i1, i2, i3, i4, i5⟩, h1, h2, h3⟩ := h
  refine ⟨⟨?_, ?_, ?_, ?_, ?_⟩, fun c => ?_, fun s p => ?_, fun s u => ?_⟩
  · rw [hn]; exact i1
  · rw [hn, hp]; exact i2
  · rw [hn, hp]; exact i3
  · rw [hp]; exact i4
  · rw [hp]; exact i5
  · rw [e1, hn]; exact h1 c
  · rw [e2, hp]; exact h2 s p
  · rw [e3, hp]; exact h3 s u

theorem hvals_of_hget {r : Redis} {k f v : Str} (h : r.hget k f = some v) : v ∈ r.hvals k :=
  List.mem_map.mpr ⟨(f, v), AMap.get?_mem h, rfl⟩

/-- What the script of `delete_cnac_by_cid` leaves of the hashes of peers. -/
theorem hget_deleteCnac {r : Redis} {c : Cid} {u : Str} (hc : r.get (cidToUsernameKey c) = some u) {k : Str}
    (h1 : kind k ≠ 1) (h5 : kind k ≠ 5) (h6 : kind k ≠ 6) (h7 : kind k ≠ 7) (f : Str) :
    (r.deleteCnac c).1.hget k f =
      if ∃ p ∈ r.hvals (peerCidKey c),
        (k = peerCidPrefix ++ '.' :: p ∧ f = u) ∨ (k = peerUsernamePrefix ++ '.' :: p ∧ f = dec c) then none
      else if k = peerCidKey c then none else if k = peerUsernameKey c then none else r.hget k f := by
  have e1 : k ≠ usernameKey u := ne_of_kind (by simpa using h1)
  have e5 : k ≠ cidToUsernameKey c := ne_of_kind (by simpa using h5)
  unfold deleteCnac
  rw [hc]
  simp only []
  rw [hget_dropAtPeers, hget_srem_ne (ne_of_kind (by simpa using h6)), hget_srem_ne (ne_of_kind (by simpa using h7))]
  simp only [hget_del, hget_cnacs, e1, e5, if_false]

theorem RPeer.delete {cidOf : Str → Cid} {w : Ref} {r : Redis} (h : RPeer cidOf w r) (c : Cid) :
    RPeer cidOf (w.step (.delete c)) (r.step (.delete c)).1 := by
  have hi := h.inv.step (.delete c) trivial
  obtain ⟨⟨i1, i2, i3, i4, i5⟩, h1, h2, h3⟩ := h
  have hc := h1 c
  simp only [Redis.step]
  cases hw : w.name c with
  | none =>
    have hr : (r.deleteCnac c).1 = r := by unfold deleteCnac; rw [hc, hw]
    have hs : w.step (.delete c) = w := by simp [Ref.step, hw]
    rw [hr, hs]
    exact ⟨⟨i1, i2, i3, i4, i5⟩, h1, h2, h3⟩
  | some u =>
    rw [hw] at hc
    have hcu := i1 hw
    refine ⟨hi, fun d => ?_, fun s p => ?_, fun s v => ?_⟩
    · unfold deleteCnac
      rw [hc]
      simp only []
      rw [get_dropAtPeers _ _ (by simp) (by simp), get_srem_ne (ne_of_kind (by simp)), get_srem_ne (ne_of_kind (by simp))]
      simp only [Ref.step, hw, Option.isSome_some, if_true]
      rcases Decidable.em (d = c) with rfl | hd
      · simp
      · rw [get_del_ne (by simpa using hd), get_del_ne (ne_of_kind (by simp)), get_cnacs, get_del_ne (ne_of_kind (by simp)),
          get_del_ne (ne_of_kind (by simp)), h1, if_neg hd]
    · rw [hget_deleteCnac hc (by simp) (by simp) (by simp) (by simp), if_neg (peerUsername_ne_peerCid s c), h2]
      simp only [Ref.step, hw, Option.isSome_some, if_true, peerUsernameKey_eq]
      rcases Decidable.em (s = c) with hs | hs
      · subst hs
        simp
      · rcases Decidable.em (p = c) with hpc | hpc
        · subst hpc
          simp only [hs, false_or, if_true]
          cases hq : w.peer s p with
          | none => simp [hs]
          | some n =>
            have := i4 hq
            obtain ⟨m, hm⟩ := Option.isSome_iff_exists.mp this
            have hcm : cidOf m = s := i1 (i2 hm)
            have hmem : dec s ∈ r.hvals (peerCidKey p) := by
              refine hvals_of_hget (f := m) ?_
              rw [h3, hcm, if_pos hm]
            rw [if_pos ⟨dec s, hmem, Or.inr ⟨rfl, trivial⟩⟩]
        · rw [if_neg]
          · simp [hs, hpc]
          · rintro ⟨q, -, ⟨e, -⟩ | ⟨-, e⟩⟩
            · exact ne_of_kind (by simp) e
            · exact hpc (dec_inj e)
    · rw [hget_deleteCnac hc (by simp) (by simp) (by simp) (by simp), if_neg (peerCid_ne_peerUsername s c), h3]
      simp only [Ref.step, hw, Option.isSome_some, if_true, peerCidKey_eq]
      rcases Decidable.em (s = c) with hs | hs
      · subst hs
        simp
      · rcases Decidable.em (v = u) with hv | hv
        · subst hv
          rw [hcu]
          simp only [hs, or_true, if_true]
          cases hq : w.peer s c with
          | none => simp [hs]
          | some n =>
            have := i4 hq
            obtain ⟨m, hm⟩ := Option.isSome_iff_exists.mp this
            have hcm : cidOf m = s := i1 (i2 hm)
            have hmem : dec s ∈ r.hvals (peerCidKey c) := by
              refine hvals_of_hget (f := m) ?_
              rw [h3, hcm, if_pos hm]
            rw [if_pos ⟨dec s, hmem, Or.inl ⟨rfl, trivial⟩⟩]
            simp
        · rw [if_neg]
          · rw [if_neg hs]
            rcases Decidable.em (cidOf v = c) with hcv | hcv
            · have : w.peer s (cidOf v) ≠ some v := by
                intro e
                have e' := i2 e
                rw [hcv, hw] at e'
                exact hv (Option.some.inj e').symm
              rw [if_neg this]
              simp [hcv]
            · simp [hs, hcv]
          · rintro ⟨q, -, ⟨-, e⟩ | ⟨e, -⟩⟩
            · exact hv e
            · exact ne_of_kind (by simp) e

theorem RPeer.regServer {cidOf : Str → Cid} {w : Ref} {r : Redis} (h : RPeer cidOf w r) (a b : Cid)
    (hp : ServerOps cidOf w (.regServer a b)) :
    RPeer cidOf (w.step (.regServer a b)) (r.step (.regServer a b)).1 := by
  have hi := h.inv.step _ hp
  obtain ⟨⟨i1, i2, i3, i4, i5⟩, h1, h2, h3⟩ := h
  obtain ⟨hab, ha, hb⟩ := hp
  obtain ⟨na, hna⟩ := Option.isSome_iff_exists.mp ha
  obtain ⟨nb, hnb⟩ := Option.isSome_iff_exists.mp hb
  have ra := h1 a
  have rb := h1 b
  rw [hna] at ra
  rw [hnb] at rb
  have ca := i1 hna
  have cb := i1 hnb
  have e : (r.step (.regServer a b)).1 =
      (((r.hset (peerUsernameKey a) (dec b) nb).hset (peerUsernameKey b) (dec a) na).hset (peerCidKey a) nb
        (dec b)).hset (peerCidKey b) na (dec a) := by
    simp only [Redis.step, Redis.regServer, ra, rb]
  rw [e]
  refine ⟨hi, fun c => ?_, fun s p => ?_, fun s v => ?_⟩
  · rw [get_hset_ne (ne_of_kind (by simp)), get_hset_ne (ne_of_kind (by simp)), get_hset_ne (ne_of_kind (by simp)),
      get_hset_ne (ne_of_kind (by simp)), h1]
    simp only [Ref.step, hna, hnb]
  · simp only [hget_hset, h2, peerUsernameKey_eq, dec_eq_iff, peerUsername_ne_peerCid, false_and, if_false, Ref.step,
      hna, hnb]
    grind
  · simp only [hget_hset, h3, peerCidKey_eq, peerCid_ne_peerUsername, false_and, if_false, Ref.step, hna, hnb]
    grind

theorem RPeer.deregServer {cidOf : Str → Cid} {w : Ref} {r : Redis} (h : RPeer cidOf w r) (a b : Cid) :
    RPeer cidOf (w.step (.deregServer a b)) (r.step (.deregServer a b)).1 := by
  have hi := h.inv.step (.deregServer a b) trivial
  obtain ⟨⟨i1, i2, i3, i4, i5⟩, h1, h2, h3⟩ := h
  have ra := h1 a
  have rb := h1 b
  have no {s p : Cid} (e : w.name s = none ∨ w.name p = none) : w.peer s p = none := by
    cases hq : w.peer s p with
    | none => rfl
    | some n =>
      have := i3 hq
      have := i2 hq
      rcases e with e | e <;> simp_all
  have g (c : Cid) : (r.step (.deregServer a b)).1.get (cidToUsernameKey c) = w.name c := by
    rw [← h1]
    simp only [Redis.step, Redis.deregServer]
    cases r.get (cidToUsernameKey a) <;> cases r.get (cidToUsernameKey b) <;> simp only [] <;>
      simp only [get_hdel_ne (ne_of_kind (a := cidToUsernameKey c) (b := peerCidKey _) (by simp)),
        get_hdel_ne (ne_of_kind (a := cidToUsernameKey c) (b := peerUsernameKey _) (by simp))]
  refine ⟨hi, g, fun s p => ?_, fun s v => ?_⟩
  · simp only [Redis.step, Redis.deregServer, ra, rb, Ref.step]
    cases hna : w.name a with
    | none =>
      cases hnb : w.name b with
      | none =>
        have := no (p := b) (Or.inl hna)
        have := no (p := a) (Or.inl hnb)
        simp only [h2]; grind
      | some nb =>
        have := no (p := b) (Or.inl hna)
        have := no (s := b) (Or.inr hna)
        simp only [hget_hdel, h2, peerUsername_ne_peerCid, false_and, if_false]; grind
    | some na =>
      cases hnb : w.name b with
      | none =>
        have := no (p := a) (Or.inl hnb)
        have := no (s := a) (Or.inr hnb)
        simp only [h2]; grind
      | some nb =>
        simp only [hget_hdel, h2, peerUsernameKey_eq, dec_eq_iff, peerUsername_ne_peerCid, false_and, if_false]
        grind
  · simp only [Redis.step, Redis.deregServer, ra, rb, Ref.step]
    cases hna : w.name a with
    | none =>
      cases hnb : w.name b with
      | none => simp only [h3]; grind
      | some nb =>
        have := i1 hnb
        simp only [hget_hdel, h3, peerCidKey_eq, peerCid_ne_peerUsername, false_and, if_false]; grind
    | some na =>
      have ca := i1 hna
      cases hnb : w.name b with
      | none => simp only [h3]; grind
      | some nb =>
        have cb := i1 hnb
        simp only [hget_hdel, h3, peerCidKey_eq, peerCid_ne_peerUsername, false_and, if_false]
        grind

theorem RPeer.step {cidOf : Str → Cid} {w : Ref} {r : Redis} (o : Op) (hp : ServerOps cidOf w o)
    (h : RPeer cidOf w r) : RPeer cidOf (w.step o) (r.step o).1 := by
  cases o with
  | save a =>
    have hi := h.inv.step _ hp
    obtain ⟨⟨i1, i2, i3, i4, i5⟩, h1, h2, h3⟩ := h
    refine ⟨hi, fun c => ?_, fun s p => ?_, fun s v => ?_⟩
    · simp only [Redis.step, get_saveCnac, h1, Ref.step]
    · simp only [Redis.step, Ref.step]
      rw [hget_saveCnac _ _ (by simp) (by simp) (by simp) (by simp), h2]
    · simp only [Redis.step, Ref.step]
      rw [hget_saveCnac _ _ (by simp) (by simp) (by simp) (by simp), h3]
      congr
  | delete c => exact h.delete c
  | purge =>
    refine ⟨RefInv.empty cidOf, fun c => rfl, fun s p => rfl, fun s v => ?_⟩
    simp [Ref.step, Ref.empty, Redis.step, Redis.empty, hget, hash]
  | regServer a b => exact h.regServer a b hp
  | regClient s p n => exact hp.elim
  | deregServer a b => exact h.deregServer a b
  | deregClient s p => exact hp.elim
  | sync s ps => exact hp.elim
  | store x v =>
    have e : (w.step (.store x v)).name = w.name ∧ (w.step (.store x v)).peer = w.peer := by
      simp only [Ref.step]; split <;> exact ⟨rfl, rfl⟩
    refine h.same e.1 e.2 (fun c => ?_) (fun s f => ?_) (fun s f => ?_)
    · exact get_hset_ne (ne_of_kind (by simp)) _ _ _
    · simp only [Redis.step, hget_hset]
      rw [if_neg]; exact fun e => ne_of_kind (by simp) e.1
    · simp only [Redis.step, hget_hset]
      rw [if_neg]; exact fun e => ne_of_kind (by simp) e.1
  | remove x =>
    refine h.same rfl rfl (fun c => ?_) (fun s f => ?_) (fun s f => ?_)
    · exact get_hdel_ne (ne_of_kind (by simp)) _ _
    · simp only [Redis.step, hget_hdel]
      rw [if_neg]; exact fun e => ne_of_kind (by simp) e.1
    · simp only [Redis.step, hget_hdel]
      rw [if_neg]; exact fun e => ne_of_kind (by simp) e.1
  | removeAll t p k =>
    refine h.same rfl rfl (fun c => ?_) (fun s f => ?_) (fun s f => ?_)
    · exact get_del_ne (ne_of_kind (by simp)) _
    · simp only [Redis.step, hget_del]
      rw [if_neg]; exact fun e => ne_of_kind (by simp) e
    · simp only [Redis.step, hget_del]
      rw [if_neg]; exact fun e => ne_of_kind (by simp) e

end Redis
end Verif.Backends

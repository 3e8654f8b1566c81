import Verif.Backends.SqlLemmas
/-
The table `peers` of the SQL store.
-/
namespace Verif.Backends
open Verif
namespace Db
set_option linter.unusedSimpArgs false

def peerRow (d : Db) (s p : Cid) (n : Str) : PeerRow := ⟨d.enc p, n, d.enc s⟩

/-- The condition of the queries for one pair. -/
def isPair (v : Variant) (s p : Cid) (r : PeerRow) : Bool := decide (r.peer = bindCid v p ∧ r.cid = bindCid v s)

theorem peerRows_eq (d : Db) (s p : Cid) : d.peerRows s p = d.peers.filter (isPair d.variant s p) := rfl

theorem of_isPair {d : Db} {s p : Cid} {r : PeerRow} (h : isPair d.variant s p r = true) :
    r.peer = d.enc p ∧ r.cid = d.enc s := of_decide_eq_true h

theorem isPair_peerRow {d : Db} {s p s' p' : Cid} {n : Str} :
    isPair d.variant s p (d.peerRow s' p' n) = decide (s = s' ∧ p = p') := by
  unfold isPair peerRow
  congr 1
  apply propext
  show d.enc p' = d.enc p ∧ d.enc s' = d.enc s ↔ _
  simp only [enc_eq_iff]
  exact ⟨fun ⟨a, b⟩ => ⟨b.symm, a.symm⟩, fun ⟨a, b⟩ => ⟨b.symm, a.symm⟩⟩

/-- One row for every pair of the reference and no other. -/
structure SPeer (w : Ref) (d : Db) : Prop where
  named : Named w d
  rows : ∀ s p, d.peerRows s p = (w.peer s p).toList.map (d.peerRow s p)
  form : ∀ r ∈ d.peers, ∃ s p n, r = d.peerRow s p n

theorem peerRows_congr {d d' : Db} (h : d'.peers = d.peers) (hv : d'.variant = d.variant) (s p : Cid) :
    d'.peerRows s p = d.peerRows s p := by
  rw [peerRows_eq, peerRows_eq, h, hv]

theorem peerRow_congr {d d' : Db} (hv : d'.variant = d.variant) (s p : Cid) (n : Str) :
    d'.peerRow s p n = d.peerRow s p n := by
  unfold peerRow enc; rw [hv]

theorem SPeer.same {w w' : Ref} {d d' : Db} (h : SPeer w d) (hn : Named w' d') (hb : w'.peer = w.peer)
    (hd : d'.peers = d.peers) (hv : d'.variant = d.variant) : SPeer w' d' := by
  refine ⟨hn, fun s p => ?_, fun r hr => ?_⟩
  · rw [peerRows_congr hd hv, h.rows, hb]
    congr 1
    funext v
    exact (peerRow_congr hv s p v).symm
  · rw [hd] at hr
    obtain ⟨s, p, n, e⟩ := h.form r hr
    exact ⟨s, p, n, e.trans (peerRow_congr hv s p n).symm⟩

/-- Removing the rows of some pairs. -/
theorem SPeer.filter {w w' : Ref} {d d' : Db} (h : SPeer w d) (hn : Named w' d') (hv : d'.variant = d.variant)
    (f : PeerRow → Bool) (hd : d'.peers = d.peers.filter f) (gone : Cid → Cid → Prop)
    (hf : ∀ s p r, r.peer = d.enc p → r.cid = d.enc s → (f r = true ↔ ¬ gone s p))
    (hg : ∀ s p, gone s p → w'.peer s p = none) (hk : ∀ s p, ¬ gone s p → w'.peer s p = w.peer s p) : SPeer w' d' := by
  refine ⟨hn, fun s p => ?_, fun r hr => ?_⟩
  · rw [peerRows_eq, hd, hv]
    by_cases e : gone s p
    · rw [hg s p e, filter_filter_of_not]
      · rfl
      · intro r hr
        have hh := of_isPair hr
        cases hfr : f r
        · rfl
        · exact absurd e ((hf s p r hh.1 hh.2).mp hfr)
    · rw [hk s p e, filter_filter_of_imp]
      · rw [← peerRows_eq, h.rows]
        congr 1
        funext v
        exact (peerRow_congr hv s p v).symm
      · intro r hr
        have hh := of_isPair hr
        exact (hf s p r hh.1 hh.2).mpr e
  · rw [hd] at hr
    obtain ⟨s, p, n, e⟩ := h.form r (List.mem_filter.mp hr).1
    exact ⟨s, p, n, e.trans (peerRow_congr hv s p n).symm⟩

/-- Adding the row of one pair. -/
theorem peerRows_insertPeer (d : Db) (s p : Cid) (n : Str) (s' p' : Cid) :
    (d.insertPeer s p n).peerRows s' p' =
      if s' = s ∧ p' = p then d.peerRows s' p' ++ [d.peerRow s p n] else d.peerRows s' p' := by
  rw [peerRows_eq]
  show List.filter (isPair d.variant s' p') (d.peers ++ [d.peerRow s p n]) = _
  rw [List.filter_append, ← peerRows_eq]
  split
  · rename_i h
    rw [List.filter_cons_of_pos (by rw [isPair_peerRow]; simpa using h), List.filter_nil]
  · rename_i h
    rw [List.filter_cons_of_neg (by rw [isPair_peerRow]; simpa using h), List.filter_nil, List.append_nil]

theorem form_insertPeer {d : Db} (h : ∀ r ∈ d.peers, ∃ s p n, r = d.peerRow s p n) (s p : Cid) (n : Str) :
    ∀ r ∈ (d.insertPeer s p n).peers, ∃ s' p' n', r = (d.insertPeer s p n).peerRow s' p' n' := by
  intro r hr
  rcases List.mem_append.mp hr with m | m
  · obtain ⟨s', p', n', e⟩ := h r m
    exact ⟨s', p', n', e⟩
  · exact ⟨s, p, n, List.mem_singleton.mp m⟩

theorem filter_sync (d : Db) (s s' p' : Cid) : ∀ ps : List Peer, (ps.map Peer.cid).Nodup →
    (∀ e ∈ ps, e.username.isSome) →
    (ps.map fun e => d.peerRow s e.cid (e.username.getD ['N', 'U', 'L', 'L'])).filter (isPair d.variant s' p') =
      if s' = s then ((ps.find? fun e => e.cid = p').bind Peer.username).toList.map (d.peerRow s p') else []
  | [], _, _ => by simp
  | e :: ps, hd, hs => by
    rw [List.map_cons, List.nodup_cons] at hd
    have ih := filter_sync d s s' p' ps hd.2 (fun x hx => hs x (List.mem_cons_of_mem _ hx))
    rw [List.map_cons, List.filter_cons, ih, isPair_peerRow]
    by_cases h : s' = s
    · by_cases hp : p' = e.cid
      · subst hp
        have hnone : ps.find? (fun x => decide (x.cid = e.cid)) = none := by
          rw [List.find?_eq_none]
          intro x hx
          simp only [decide_eq_true_eq]
          intro e'
          exact hd.1 (List.mem_map.mpr ⟨x, hx, e'⟩)
        have hsome := hs e List.mem_cons_self
        obtain ⟨n, hn⟩ := Option.isSome_iff_exists.mp hsome
        simp [h, hn, hnone]
      · have hp' : ¬ e.cid = p' := fun h => hp h.symm
        simp [h, hp, hp']
    · simp [h]

theorem SPeer.step {w : Ref} {d : Db} (o : Op) (hp : NoDuplicates w o) (h : SPeer w d) :
    SPeer (w.step o) (d.step o).1 := by
  have hn := h.named.step o
  have hv := variant_step d o
  cases o with
  | save a =>
    refine h.same hn rfl ?_ hv
    simp only [Db.step]; split <;> rfl
  | purge => exact ⟨hn, fun _ _ => rfl, fun r hr => absurd hr List.not_mem_nil⟩
  | store x v =>
    refine h.same hn ?_ ?_ hv
    · simp only [Ref.step]; split <;> rfl
    · simp only [Db.step]; split <;> rfl
  | remove x => exact h.same hn rfl rfl hv
  | removeAll s p key => exact h.same hn rfl rfl hv
  | delete c =>
    have hr := h.named.registered c
    by_cases hc : (w.name c).isSome
    · refine h.filter hn hv (fun r => decide (r.cid ≠ d.enc c ∧ r.peer ≠ d.enc c)) ?_ (fun s p => s = c ∨ p = c) ?_ ?_ ?_
      · simp only [Db.step, hr, hc, if_true]
      · intro s p r h1 h2
        simp only [decide_eq_true_eq, h1, h2, ne_eq, enc_eq_iff]
        exact ⟨fun ⟨a, b⟩ c => c.elim a b, fun a => ⟨fun b => a (.inl b), fun b => a (.inr b)⟩⟩
      · intro s p e
        simp [Ref.step, hc, e]
      · intro s p e
        simp [Ref.step, hc, e]
    · have e1 : (d.step (.delete c)).1 = d := by simp only [Db.step, hr]; simp [hc]
      have e2 : w.step (.delete c) = w := by simp [Ref.step, hc]
      rw [e1, e2]; exact h
  | deregServer a b =>
    refine h.filter hn hv (fun r => decide (¬ ((r.peer = d.enc a ∧ r.cid = d.enc b) ∨ (r.peer = d.enc b ∧ r.cid = d.enc a))))
      rfl (fun s p => (s = a ∧ p = b) ∨ (s = b ∧ p = a)) ?_ ?_ ?_
    · intro s p r h1 h2
      simp only [decide_eq_true_eq, h1, h2, enc_eq_iff]
      constructor <;> intro x y <;> apply x <;> rcases y with y | y <;> simp [y]
    · intro s p e
      simp only [Ref.step]; rw [if_pos e]
    · intro s p e
      simp only [Ref.step]; rw [if_neg e]
  | deregClient a b =>
    refine h.filter hn hv (fun r => decide (¬ (r.peer = d.enc b ∧ r.cid = d.enc a)))
      rfl (fun s p => s = a ∧ p = b) ?_ ?_ ?_
    · intro s p r h1 h2
      simp only [decide_eq_true_eq, h1, h2, enc_eq_iff]
      constructor <;> intro x y <;> apply x <;> simp [y]
    · intro s p e
      simp only [Ref.step]; rw [if_pos e]
    · intro s p e
      simp only [Ref.step]; rw [if_neg e]
  | regClient s p n =>
    have hr := h.named.registered s
    have hp : w.peer s p = none := hp
    by_cases hc : (w.name s).isSome
    · have e1 : (d.step (.regClient s p n)).1 = d.insertPeer s p n := by simp only [Db.step, hr, hc, if_true]
      rw [e1] at hn hv ⊢
      refine ⟨hn, fun s' p' => ?_, form_insertPeer h.form s p n⟩
      rw [peerRows_insertPeer, h.rows]
      simp only [Ref.step, hc, if_true]
      by_cases e : s' = s ∧ p' = p
      · rw [if_pos e, if_pos e]
        obtain ⟨rfl, rfl⟩ := e
        rw [hp]; rfl
      · rw [if_neg e, if_neg e]; rfl
    · have e1 : (d.step (.regClient s p n)).1 = d := by simp only [Db.step, hr]; simp [hc]
      have e2 : w.step (.regClient s p n) = w := by simp [Ref.step, hc]
      rw [e1, e2]; exact h
  | regServer a b =>
    obtain ⟨hab, h1, h2⟩ : a ≠ b ∧ w.peer a b = none ∧ w.peer b a = none := hp
    have na := h.named a
    have nb := h.named b
    cases ha : w.name a with
    | none =>
      have e1 : (d.step (.regServer a b)).1 = d := by simp only [Db.step, na, ha]
      have e2 : w.step (.regServer a b) = w := by simp only [Ref.step, ha]
      rw [e1, e2]; exact h
    | some x =>
      cases hb : w.name b with
      | none =>
        have e1 : (d.step (.regServer a b)).1 = d := by simp only [Db.step, na, ha, nb, hb]
        have e2 : w.step (.regServer a b) = w := by simp only [Ref.step, ha, hb]
        rw [e1, e2]; exact h
      | some y =>
        have e1 : (d.step (.regServer a b)).1 = (d.insertPeer b a x).insertPeer a b y := by
          simp only [Db.step, na, ha, nb, hb]
        rw [e1] at hn hv ⊢
        refine ⟨hn, fun s' p' => ?_, form_insertPeer (form_insertPeer h.form b a x) a b y⟩
        rw [peerRows_insertPeer, peerRows_insertPeer, h.rows]
        simp only [Ref.step, ha, hb]
        by_cases e : s' = a ∧ p' = b
        · obtain ⟨rfl, rfl⟩ := e
          rw [if_pos ⟨rfl, rfl⟩, if_neg (fun x => hab x.1), if_pos ⟨rfl, rfl⟩, h1]; rfl
        · rw [if_neg e, if_neg e]
          by_cases e' : s' = b ∧ p' = a
          · obtain ⟨rfl, rfl⟩ := e'
            rw [if_pos ⟨rfl, rfl⟩, if_pos ⟨rfl, rfl⟩, h2]; rfl
          · rw [if_neg e', if_neg e']; rfl
  | sync s ps =>
    obtain ⟨h0, h1, h2⟩ : ps ≠ [] ∧ (ps.map Peer.cid).Nodup ∧ ∀ e ∈ ps, e.username.isSome := hp
    have hr := h.named.registered s
    by_cases hc : (w.name s).isSome
    · have e1 : (d.step (.sync s ps)).1 = { d with peers := (d.peers.filter fun r => r.cid ≠ d.enc s) ++
          (ps.map fun e => d.peerRow s e.cid (e.username.getD ['N', 'U', 'L', 'L'])) } := by
        have h0' : ps.isEmpty = false := by simpa using h0
        simp only [Db.step, hr, hc, if_true, h0', sync_fold]
        rfl
      refine ⟨hn, fun s' p' => ?_, ?_⟩
      · rw [e1]
        show List.filter (isPair d.variant s' p') _ = _
        rw [List.filter_append, filter_sync d s s' p' ps h1 h2]
        simp only [Ref.step, hc, if_true]
        by_cases e : s' = s
        · subst e
          rw [if_pos rfl, if_pos rfl, filter_filter_of_not, List.nil_append]
          · rfl
          · intro r hr
            have := (of_isPair hr).2
            simp [this]
        · rw [if_neg e, if_neg e, List.append_nil, filter_filter_of_imp]
          · exact h.rows s' p'
          · intro r hr
            have := (of_isPair hr).2
            simp [this, e]
      · rw [e1]
        intro r hr
        rcases List.mem_append.mp hr with m | m
        · obtain ⟨s', p', n', e⟩ := h.form r (List.mem_filter.mp m).1
          exact ⟨s', p', n', e⟩
        · obtain ⟨x, _, e⟩ := List.mem_map.mp m
          exact ⟨s, x.cid, _, e.symm⟩
    · have e1 : (d.step (.sync s ps)).1 = d := by
        simp only [Db.step, hr]
        split
        · rfl
        · simp [hc]
      have e2 : w.step (.sync s ps) = w := by simp [Ref.step, hc]
      rw [e1, e2]; exact h

theorem SPeer.empty (v : Variant) : SPeer Ref.empty (Db.empty v) :=
  ⟨Named.empty v, fun _ _ => rfl, fun _ h => absurd h List.not_mem_nil⟩

end Db
end Verif.Backends

import Verif.Backends.SqlPeers
import Verif.Backends.MemPeers
/-
What the look-ups answer in a store that follows the reference.
-/
namespace Verif.Backends
open Verif
namespace Db
set_option linter.unusedSimpArgs false

theorem get?_fold (k : Str) : ∀ (rows : List ByteRow) (m : AMap Str Str),
    (rows.foldl (fun (m : AMap Str Str) row => m.insert row.sub row.bin) m).get? k =
      (((rows.filter fun r => r.sub = k).getLast?).map ByteRow.bin).or (m.get? k)
  | [], m => by simp
  | r :: rows, m => by
    rw [List.foldl_cons, get?_fold k rows, AMap.get?_insert]
    by_cases h : k = r.sub
    · subst h
      rw [if_pos rfl, List.filter_cons_of_pos (by simp), List.getLast?_cons]
      cases (rows.filter fun r' => r'.sub = r.sub).getLast? <;> simp
    · rw [if_neg h, List.filter_cons_of_neg (by simp; exact fun e => h e.symm)]

theorem SByte.getByte {w : Ref} {d : Db} (h : SByte w d) (x : Slot) (r : Option Str) :
    d.GetByte x r ↔ r = w.byte x := by
  unfold GetByte
  rw [h.rows x]
  cases hw : w.byte x with
  | none => simp
  | some v => simp [byteRow]

theorem SByte.getBytes {w : Ref} {d : Db} (h : SByte w d) (s p : Cid) (key : Str) (r : Str → Option Str) :
    d.GetBytes s p key r ↔ ∀ k, r k = w.byte ⟨s, p, key, k⟩ := by
  have main : ∀ rows : List ByteRow,
      rows.Perm (d.bytes.filter fun r => r.cid = d.enc s ∧ r.peer = d.enc p ∧ r.id = key) → ∀ k,
      (rows.foldl (fun (m : AMap Str Str) row => m.insert row.sub row.bin) []).get? k = w.byte ⟨s, p, key, k⟩ := by
    intro rows hr k
    rw [get?_fold]
    have hf := hr.filter fun r => decide (r.sub = k)
    have e : ((d.bytes.filter fun r => decide (r.cid = d.enc s ∧ r.peer = d.enc p ∧ r.id = key)).filter
        fun r => decide (r.sub = k)) = d.byteRows ⟨s, p, key, k⟩ := by
      rw [byteRows_eq, List.filter_filter]
      apply List.filter_congr
      intro a _
      rw [Bool.eq_iff_iff]
      unfold isSlot enc
      rw [Bool.and_eq_true, decide_eq_true_eq, decide_eq_true_eq, decide_eq_true_eq]
      constructor
      · rintro ⟨a1, a2, a3, a4⟩; exact ⟨a2, a3, a4, a1⟩
      · rintro ⟨a1, a2, a3, a4⟩; exact ⟨a4, a1, a2, a3⟩
    rw [e, h.rows] at hf
    cases hw : w.byte ⟨s, p, key, k⟩ with
    | none =>
      rw [hw] at hf
      have : rows.filter (fun r => decide (r.sub = k)) = [] := List.Perm.eq_nil hf
      rw [this]; rfl
    | some v =>
      rw [hw] at hf
      have : rows.filter (fun r => decide (r.sub = k)) = [d.byteRow ⟨s, p, key, k⟩ v] := List.perm_singleton.mp hf
      rw [this]; rfl
  constructor
  · rintro ⟨rows, hr, hk⟩ k
    rw [hk, main rows hr]
  · intro hk
    exact ⟨_, List.Perm.refl _, fun k => by rw [hk, main _ (List.Perm.refl _)]⟩

theorem SPeer.peerExists {w : Ref} {d : Db} (h : SPeer w d) (s p : Cid) : d.peerExists s p = (w.peer s p).isSome := by
  unfold Db.peerExists
  rw [h.rows]
  cases w.peer s p <;> rfl

theorem SPeer.getPeer {w : Ref} {d : Db} (h : SPeer w d) (s p : Cid) (r : Option Peer) :
    d.GetPeer s p r ↔ r = (w.peer s p).map fun n => ⟨p, some n⟩ := by
  unfold GetPeer
  rw [h.rows s p]
  cases w.peer s p with
  | none => simp
  | some v => simp [peerRow]

/-- The comparison of cids is exact. -/
def Exact (d : Db) (close : Int64 → Int64 → Bool) : Prop :=
  d.variant = .mysql → ∀ i j, close i j = true ↔ i = j

theorem joinEq_exact {d : Db} {close : Int64 → Int64 → Bool} (he : Exact d close) (c p : Cid) :
    joinEq d.variant close (d.enc c) (d.enc p) = decide (p = c) := by
  have hd : (decide (d.enc c = d.enc p)) = decide (p = c) := by
    congr 1
    apply propext
    rw [enc_eq_iff]
    exact eq_comm
  unfold Exact at he
  unfold enc at hd ⊢
  cases hv : d.variant with
  | mysql =>
    rw [hv] at hd
    have he := he hv
    simp only [bindCid, joinEq] at hd ⊢
    rw [← hd, Bool.eq_iff_iff, he]
    simp
  | postgre => rw [hv] at hd; exact hd
  | sqlite => rw [hv] at hd; exact hd

theorem SPeer.join {w : Ref} {d : Db} (h : SPeer w d) {close : Int64 → Int64 → Bool} (he : Exact d close) (s : Cid)
    (ps : List Cid) : d.join close s ps = ps.flatMap fun c => (w.peer s c).toList.map (d.peerRow s c) := by
  unfold Db.join
  congr 1
  funext c
  rw [← h.rows, peerRows_eq]
  apply List.filter_congr
  intro r hr
  obtain ⟨s', p', n, rfl⟩ := h.form r hr
  show (joinEq d.variant close (d.enc c) (d.enc p') && decide (d.enc s' = d.enc s)) = _
  rw [joinEq_exact he, isPair_peerRow, Bool.eq_iff_iff]
  simp only [Bool.and_eq_true, decide_eq_true_eq, enc_eq_iff]
  exact ⟨fun ⟨a, b⟩ => ⟨b.symm, a.symm⟩, fun ⟨a, b⟩ => ⟨b.symm, a.symm⟩⟩

theorem isLimit_all {l rows : List PeerRow} {n : Nat} (hl : l.length ≤ n) (h : IsLimit l n rows) : rows.Perm l := by
  obtain ⟨rest, hp, hn⟩ := h
  have := hp.length_eq
  rw [List.length_append, hn, Nat.min_eq_right hl] at this
  have hr : rest = [] := List.eq_nil_of_length_eq_zero (by omega)
  rw [hr, List.append_nil] at hp
  exact hp

theorem isLimit_self (l : List PeerRow) (n : Nat) (hl : l.length ≤ n) : IsLimit l n l :=
  ⟨[], by simp, by omega⟩

theorem length_flatMap_le (f : Cid → Option Str) (g : Cid → Str → PeerRow) : ∀ ps : List Cid,
    (ps.flatMap fun c => (f c).toList.map (g c)).length ≤ ps.length
  | [] => Nat.le_refl 0
  | c :: ps => by
    have := length_flatMap_le f g ps
    rw [List.flatMap_cons, List.length_append, List.length_cons]
    have h1 : ((f c).toList.map (g c)).length ≤ 1 := by cases f c <;> simp
    omega

theorem mem_cids {w : Ref} {d : Db} {s c : Cid} {ps : List Cid} (hc : c ∈ ps) {rows : List PeerRow}
    (hr : rows.Perm (ps.flatMap fun c => (w.peer s c).toList.map (d.peerRow s c))) :
    (c ∈ rows.filterMap fun r => readCid r.peer) ↔ (w.peer s c).isSome := by
  rw [List.mem_filterMap]
  constructor
  · rintro ⟨r, hm, he⟩
    have := hr.mem_iff.mp hm
    rw [List.mem_flatMap] at this
    obtain ⟨c', _, hr'⟩ := this
    obtain ⟨n, hn, rfl⟩ := List.mem_map.mp hr'
    have : c' = c := by simpa [peerRow, enc] using he
    subst this
    rw [Option.mem_toList] at hn
    rw [hn]; rfl
  · intro hs
    obtain ⟨n, hn⟩ := Option.isSome_iff_exists.mp hs
    refine ⟨d.peerRow s c n, hr.mem_iff.mpr ?_, by simp [peerRow, enc]⟩
    rw [List.mem_flatMap]
    exact ⟨c, hc, by simp [hn]⟩

theorem SPeer.areMutuals {w : Ref} {d : Db} (h : SPeer w d) {close : Int64 → Int64 → Bool} (he : Exact d close)
    (s : Cid) (ps : List Cid) (r : List Bool) :
    d.AreMutuals close s ps r ↔ r = ps.map fun c => (w.peer s c).isSome := by
  unfold AreMutuals
  rw [h.join he]
  have hl := length_flatMap_le (w.peer s) (d.peerRow s) ps
  have key : ∀ rows : List PeerRow, rows.Perm (ps.flatMap fun c => (w.peer s c).toList.map (d.peerRow s c)) →
      (ps.map fun c => decide (c ∈ rows.filterMap fun r => readCid r.peer)) = ps.map fun c => (w.peer s c).isSome := by
    intro rows hr
    apply List.map_congr_left
    intro c hc
    rw [Bool.eq_iff_iff, decide_eq_true_eq]
    exact mem_cids hc hr
  constructor
  · rintro ⟨rows, hr, rfl⟩
    exact key rows (isLimit_all hl hr)
  · rintro rfl
    exact ⟨_, isLimit_self _ _ hl, (key _ (List.Perm.refl _)).symm⟩

theorem filterMap_flatMap_rows {w : Ref} {d : Db} (s : Cid) : ∀ ps : List Cid,
    (ps.flatMap fun c => (w.peer s c).toList.map (d.peerRow s c)).filterMap
        (fun r => (readCid r.peer).map fun c => (⟨c, some r.username⟩ : Peer)) =
      ps.filterMap fun c => (w.peer s c).map fun n => ⟨c, some n⟩
  | [] => rfl
  | c :: ps => by
    rw [List.flatMap_cons, List.filterMap_append, filterMap_flatMap_rows s ps]
    cases hx : w.peer s c with
    | none => simp [hx]
    | some n => simp [hx, peerRow, enc]

theorem SPeer.getPeers {w : Ref} {d : Db} (h : SPeer w d) {close : Int64 → Int64 → Bool} (he : Exact d close)
    (s : Cid) (ps : List Cid) (r : List Peer) (hr : d.GetPeers close s ps r) :
    r.Perm (ps.filterMap fun c => (w.peer s c).map fun n => ⟨c, some n⟩) := by
  obtain ⟨rows, hl, rfl⟩ := hr
  rw [h.join he] at hl
  have hp := isLimit_all (length_flatMap_le (w.peer s) (d.peerRow s) ps) hl
  have := hp.filterMap (fun r => (readCid r.peer).map fun c => (⟨c, some r.username⟩ : Peer))
  rw [filterMap_flatMap_rows] at this
  exact this

/-- The list of peers: the cids of the reference, each once. -/
theorem SPeer.peerList {w : Ref} {d : Db} (h : SPeer w d) (s : Cid) (r : Option (List Cid)) (hr : d.PeerList s r) :
    (∀ p, p ∈ r.getD [] ↔ (w.peer s p).isSome) ∧ (r.getD []).Nodup ∧ r ≠ some [] := by
  obtain ⟨rows, hp, e⟩ := hr
  have hg : r.getD [] = rows.filterMap fun r => readCid r.peer := by
    rw [e]
    cases hx : (rows.filterMap fun r => readCid r.peer) with
    | nil => rfl
    | cons a l => rfl
  have hne : r ≠ some [] := by
    rw [e]
    cases hx : (rows.filterMap fun r => readCid r.peer) with
    | nil => simp
    | cons a l => simp
  have hcount : ∀ p, (rows.filterMap fun r => readCid r.peer).count p = if (w.peer s p).isSome then 1 else 0 := by
    intro p
    have h1 : (rows.filterMap fun r => readCid r.peer).count p =
        ((d.peers.filter fun r => r.cid = d.enc s).filterMap fun r => readCid r.peer).count p :=
      (hp.filterMap _).count_eq p
    rw [h1]
    have h2 : ∀ l : List PeerRow, (∀ r ∈ l, ∃ s p n, r = d.peerRow s p n) →
        ((l.filter fun r => r.cid = d.enc s).filterMap fun r => readCid r.peer).count p =
          (l.filter (isPair d.variant s p)).length := by
      intro l
      induction l with
      | nil => intro _; rfl
      | cons x l ih =>
        intro hf
        have ih := ih fun r hr => hf r (List.mem_cons_of_mem _ hr)
        obtain ⟨s', p', n, rfl⟩ := hf x List.mem_cons_self
        by_cases hs : s' = s
        · subst hs
          rw [List.filter_cons_of_pos (by simp [peerRow]), List.filterMap_cons]
          have : readCid (d.peerRow s' p' n).peer = some p' := by simp [peerRow, enc]
          rw [this]
          by_cases hp' : p = p'
          · subst hp'
            rw [List.filter_cons_of_pos (by simp [isPair_peerRow])]
            simp [ih]
          · rw [List.filter_cons_of_neg (by simp [isPair_peerRow, hp'])]
            simp [ih, List.count_cons, hp', eq_comm]
        · have hs' : ¬ s = s' := fun k => hs k.symm
          rw [List.filter_cons_of_neg (by simp [peerRow, hs]), List.filter_cons_of_neg (by simp [isPair_peerRow, hs']), ih]
    rw [h2 _ h.form, ← peerRows_eq, h.rows]
    cases w.peer s p <;> simp
  refine ⟨fun p => ?_, ?_, hne⟩
  · rw [hg, ← List.count_pos_iff, hcount]
    cases w.peer s p <;> simp
  · rw [hg, List.nodup_iff_count]
    intro p
    rw [hcount]
    split <;> omega

end Db

namespace Redis

theorem RPeer.peerExists {cidOf : Str → Cid} {w : Ref} {r : Redis} (h : RPeer cidOf w r) (s p : Cid) :
    r.peerExists s p = (w.peer s p).isSome := by
  rw [← h.peer]
  simp [Redis.peerExists, hexists, hget, AMap.contains]

theorem RPeer.getPeer {cidOf : Str → Cid} {w : Ref} {r : Redis} (h : RPeer cidOf w r) (s p : Cid) :
    r.getPeer s p = (w.peer s p).map fun n => ⟨p, some n⟩ := by
  unfold Redis.getPeer; rw [h.peer]

theorem RPeer.getPeers {cidOf : Str → Cid} {w : Ref} {r : Redis} (h : RPeer cidOf w r) (s : Cid) : ∀ ps : List Cid,
    r.getPeers s ps = ps.mapM fun c => (w.peer s c).map fun n => (⟨c, some n⟩ : Peer)
  | [] => rfl
  | c :: ps => by
    have ih := RPeer.getPeers h s ps
    unfold Redis.getPeers at ih ⊢
    rw [List.mapM_cons, List.mapM_cons, ← ih, h.peer]
    cases w.peer s c with
    | none => rfl
    | some n =>
      cases (ps.mapM fun c => r.hget (peerUsernameKey s) (dec c)) with
      | none => rfl
      | some l => rfl

end Redis
end Verif.Backends

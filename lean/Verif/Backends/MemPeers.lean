import Verif.Backends.MemLemmas
/-
The lists of peers in memory follow the reference.
-/
namespace Verif.Backends
open Verif
namespace Memory
set_option linter.unusedSimpArgs false

/-- The entry of `p` in a list of peers. -/
def entry (l : List Peer) (p : Cid) : Option Peer := l.find? fun e => e.cid = p

theorem mem_eraseP {q : Cid} {e : Peer} {l : List Peer} (h : e ∈ l.eraseP fun e => e.cid = q) : e ∈ l :=
  (List.eraseP_sublist).subset h

theorem nodup_eraseP {l : List Peer} (q : Cid) (h : (l.map Peer.cid).Nodup) :
    ((l.eraseP fun e => e.cid = q).map Peer.cid).Nodup :=
  h.sublist (List.Sublist.map _ List.eraseP_sublist)

theorem entry_eraseP {l : List Peer} (h : (l.map Peer.cid).Nodup) (q p : Cid) :
    entry (l.eraseP fun e => e.cid = q) p = if p = q then none else entry l p := by
  unfold entry
  induction l with
  | nil => simp
  | cons e l ih =>
    rw [List.map_cons, List.nodup_cons] at h
    have ih := ih h.2
    by_cases he : e.cid = q
    · rw [List.eraseP_cons_of_pos (by simp [he])]
      by_cases hp : p = q
      · rw [if_pos hp, List.find?_eq_none]
        intro x hx
        simp only [decide_eq_true_eq]
        intro k
        exact h.1 (List.mem_map.mpr ⟨x, hx, by rw [k, hp, he]⟩)
      · rw [if_neg hp, List.find?_cons_of_neg]
        simp [he, eq_comm, hp]
        exact fun k => hp k.symm
    · rw [List.eraseP_cons_of_neg (by simp [he])]
      by_cases hp : e.cid = p
      · have : ¬ p = q := fun k => he (hp.trans k)
        rw [List.find?_cons_of_pos (by simp [hp]), if_neg this, List.find?_cons_of_pos (by simp [hp])]
      · rw [List.find?_cons_of_neg (by simp [hp]), List.find?_cons_of_neg (by simp [hp]), ih]

theorem entry_append (l : List Peer) (e : Peer) (p : Cid) :
    entry (l ++ [e]) p = (entry l p).or (if e.cid = p then some e else none) := by
  unfold entry
  rw [List.find?_append]
  by_cases h : e.cid = p
  · simp [h]
  · simp [h]

theorem nodup_append {l : List Peer} (h : (l.map Peer.cid).Nodup) {e : Peer} (he : entry l e.cid = none) :
    ((l ++ [e]).map Peer.cid).Nodup := by
  rw [List.map_append, List.nodup_append]
  refine ⟨h, by simp, ?_⟩
  intro a ha b hb
  simp only [List.map_cons, List.map_nil, List.mem_singleton] at hb
  subst hb
  intro k
  obtain ⟨x, hx, rfl⟩ := List.mem_map.mp ha
  unfold entry at he
  rw [List.find?_eq_none] at he
  exact he x hx (by simp [k])

theorem peerExists_eq (m : Memory) (s p : Cid) : m.peerExists s p = (entry (m.peersOf s) p).isSome := by
  unfold peerExists entry
  rw [Bool.eq_iff_iff, List.find?_isSome]
  simp

/-- Removing `c` from the lists of the accounts of `l`. -/
theorem fold_dropPeer (c : Cid) : ∀ (l : List Peer) (m : Memory), (∀ s, ((m.peersOf s).map Peer.cid).Nodup) →
    (∀ s, (((l.foldl (fun w p => dropPeer w p.cid c) m).peersOf s).map Peer.cid).Nodup) ∧
    ∀ s p, entry ((l.foldl (fun w p => dropPeer w p.cid c) m).peersOf s) p =
      if p = c ∧ s ∈ l.map Peer.cid then none else entry (m.peersOf s) p
  | [], m, h => ⟨h, fun s p => by simp⟩
  | e :: l, m, h => by
    rw [List.foldl_cons]
    have h' : ∀ s, (((m.dropPeer e.cid c).peersOf s).map Peer.cid).Nodup := by
      intro s
      rw [peersOf_dropPeer]
      split
      · exact nodup_eraseP c (h _)
      · exact h s
    obtain ⟨i1, i2⟩ := fold_dropPeer c l _ h'
    refine ⟨i1, fun s p => ?_⟩
    rw [i2, peersOf_dropPeer]
    simp only [List.map_cons, List.mem_cons]
    by_cases hs : s = e.cid
    · subst hs
      rw [if_pos rfl, entry_eraseP (h _)]
      by_cases hp : p = c
      · simp [hp]
      · simp [hp]
    · simp [hs]

/-- Names and lists of the reference. -/
structure MPeer (cidOf : Str → Cid) (w : Ref) (m : Memory) : Prop where
  inv : RefInv cidOf w
  name : ∀ c, m.nameOf c = w.name c
  nodup : ∀ s, ((m.peersOf s).map Peer.cid).Nodup
  entry : ∀ s p, entry (m.peersOf s) p = (w.peer s p).map fun n => ⟨p, some n⟩

theorem MPeer.same {cidOf : Str → Cid} {w w' : Ref} {m m' : Memory} (h : MPeer cidOf w m) (hi : RefInv cidOf w')
    (hn : w'.name = w.name) (hb : w'.peer = w.peer) (e1 : ∀ c, m'.nameOf c = m.nameOf c)
    (e2 : ∀ c, m'.peersOf c = m.peersOf c) : MPeer cidOf w' m' := by
  refine ⟨hi, fun c => ?_, fun s => ?_, fun s p => ?_⟩
  · rw [e1, hn, h.name]
  · rw [e2]; exact h.nodup s
  · rw [e2, hb]; exact h.entry s p

theorem peersOf_keep (m : Memory) (c : Cid) (f : Mem → Mem) (hf : ∀ x, (f x).peers = x.peers) (d : Cid) :
    (m.modify c f).peersOf d = m.peersOf d := by
  rw [peersOf_modify]
  by_cases e : d = c
  · subst e
    unfold peersOf
    cases m.get? d <;> simp [hf]
  · simp [e]

theorem peersOf_add (m : Memory) (c : Cid) (e : Peer) (hc : (m.nameOf c).isSome) (d : Cid) :
    (m.modify c fun x => { x with peers := x.peers ++ [e] }).peersOf d =
      if d = c then m.peersOf c ++ [e] else m.peersOf d := by
  rw [peersOf_modify]
  by_cases h : d = c
  · subst h
    unfold peersOf
    unfold nameOf at hc
    cases hg : m.get? d with
    | none => rw [hg] at hc; simp at hc
    | some x => simp
  · simp [h]

theorem MPeer.peerExists {cidOf : Str → Cid} {w : Ref} {m : Memory} (h : MPeer cidOf w m) (s p : Cid) :
    m.peerExists s p = (w.peer s p).isSome := by
  rw [peerExists_eq, h.entry]; simp

/-- Registration on both sides. -/
theorem MPeer.regServer {cidOf : Str → Cid} {w : Ref} {m : Memory} (h : MPeer cidOf w m) {a b : Cid} (hab : a ≠ b)
    (ha : (w.name a).isSome) (hb : (w.name b).isSome) (hnew : w.peer a b = none)
    (hi : RefInv cidOf (w.step (.regServer a b))) : MPeer cidOf (w.step (.regServer a b)) (m.step (.regServer a b)).1 := by
  obtain ⟨na, hna⟩ := Option.isSome_iff_exists.mp ha
  obtain ⟨nb, hnb⟩ := Option.isSome_iff_exists.mp hb
  have hnew' : w.peer b a = none := by
    cases hx : w.peer b a with
    | none => rfl
    | some n => have := h.inv.sym hx; rw [hnew] at this; simp at this
  have h1 := h.name a
  have h2 := h.name b
  rw [hna] at h1
  rw [hnb] at h2
  obtain ⟨x, hx, ex⟩ : ∃ x, m.get? a = some x ∧ x.acct.username = na := by
    simpa [nameOf, Option.map_eq_some_iff] using h1
  obtain ⟨y, hy, ey⟩ : ∃ y, m.get? b = some y ∧ y.acct.username = nb := by
    simpa [nameOf, Option.map_eq_some_iff] using h2
  have hstep : (m.step (.regServer a b)).1 =
      (m.modify a fun e => { e with peers := e.peers ++ [⟨b, some nb⟩] }).modify b
        fun e => { e with peers := e.peers ++ [⟨a, some na⟩] } := by
    simp only [Memory.step, hx, hy, ex, ey]
  have hname : ∀ c, (m.modify a fun e => { e with peers := e.peers ++ [⟨b, some nb⟩] }).nameOf c = m.nameOf c :=
    nameOf_modify _ _ _ fun _ => rfl
  have hpe : ∀ s, (m.step (.regServer a b)).1.peersOf s =
      if s = a then m.peersOf a ++ [⟨b, some nb⟩] else if s = b then m.peersOf b ++ [⟨a, some na⟩] else m.peersOf s := by
    intro s
    rw [hstep, peersOf_add _ _ _ (by rw [hname, h2]; rfl), peersOf_add _ _ _ (by rw [h1]; rfl),
      peersOf_add _ _ _ (by rw [h1]; rfl)]
    by_cases e : s = b
    · subst e
      rw [if_pos rfl, if_neg (Ne.symm hab), if_neg (Ne.symm hab), if_pos rfl]
    · rw [if_neg e]
      by_cases e' : s = a
      · rw [if_pos e', if_pos e']
      · rw [if_neg e', if_neg e', if_neg e]
  have ea := h.entry a b
  have eb := h.entry b a
  rw [hnew] at ea
  rw [hnew'] at eb
  refine ⟨hi, fun c => ?_, fun s => ?_, fun s p => ?_⟩
  · rw [hstep, nameOf_modify, nameOf_modify, h.name]
    · simp only [Ref.step, hna, hnb]
    · exact fun _ => rfl
    · exact fun _ => rfl
  · rw [hpe]
    split
    · exact nodup_append (h.nodup a) ea
    · split
      · exact nodup_append (h.nodup b) eb
      · exact h.nodup s
  · rw [hpe]
    simp only [Ref.step, hna, hnb]
    have hsp := h.entry s p
    by_cases e : s = a
    · subst e
      rw [if_pos rfl, entry_append]
      by_cases e' : p = b
      · subst e'
        simp [hsp, hnew]
      · have e'' : ¬ b = p := fun k => e' k.symm
        simp [hsp, e', e'', hab]
    · rw [if_neg e, if_neg (fun k : s = a ∧ p = b => e k.1)]
      by_cases e' : s = b
      · subst e'
        rw [if_pos rfl, entry_append]
        by_cases e'' : p = a
        · subst e''
          simp [hsp, hnew']
        · have e3 : ¬ a = p := fun k => e'' k.symm
          simp [hsp, e'', e3]
      · rw [if_neg e', if_neg (fun k => e' k.1), hsp]

theorem MPeer.deregServer {cidOf : Str → Cid} {w : Ref} {m : Memory} (h : MPeer cidOf w m) (a b : Cid)
    (hi : RefInv cidOf (w.step (.deregServer a b))) :
    MPeer cidOf (w.step (.deregServer a b)) (m.step (.deregServer a b)).1 := by
  cases hx : w.peer a b with
  | none =>
    have hx' : w.peer b a = none := by
      cases hy : w.peer b a with
      | none => rfl
      | some n => have := h.inv.sym hy; rw [hx] at this; simp at this
    have e1 : (m.step (.deregServer a b)).1 = m := by
      simp only [Memory.step, h.peerExists, hx]
      split <;> simp
    rw [e1]
    refine h.same hi rfl ?_ (fun _ => rfl) (fun _ => rfl)
    funext s p
    simp only [Ref.step]
    split
    · rename_i k
      rcases k with ⟨rfl, rfl⟩ | ⟨rfl, rfl⟩
      · exact hx.symm
      · exact hx'.symm
    · rfl
  | some n =>
    have hs := h.inv.sym hx
    have hab := h.inv.irrefl hx
    have hca : m.contains a = true := by rw [contains_eq, h.name]; exact h.inv.selfNamed hx
    have hcb : m.contains b = true := by rw [contains_eq, h.name, h.inv.peerNamed hx]; rfl
    have hba : (m.dropPeer a b).peerExists b a = true := by
      rw [peerExists_eq, peersOf_dropPeer, if_neg (Ne.symm hab), ← peerExists_eq, h.peerExists, hs]
    have e1 : (m.step (.deregServer a b)).1 = (m.dropPeer a b).dropPeer b a := by
      simp only [Memory.step, hca, hcb, h.peerExists, hx, Bool.and_self, if_true, Option.isSome_some, hba]
    have hpe : ∀ s, ((m.dropPeer a b).dropPeer b a).peersOf s =
        if s = b then (m.peersOf b).eraseP (fun e => e.cid = a)
        else if s = a then (m.peersOf a).eraseP (fun e => e.cid = b) else m.peersOf s := by
      intro s
      rw [peersOf_dropPeer, peersOf_dropPeer, peersOf_dropPeer, if_neg (Ne.symm hab)]
    rw [e1]
    refine ⟨hi, fun c => ?_, fun s => ?_, fun s p => ?_⟩
    · rw [nameOf_dropPeer, nameOf_dropPeer, h.name]; rfl
    · rw [hpe]
      split
      · exact nodup_eraseP _ (h.nodup b)
      · split
        · exact nodup_eraseP _ (h.nodup a)
        · exact h.nodup s
    · rw [hpe]
      simp only [Ref.step]
      have hsp := h.entry s p
      by_cases e : s = b
      · subst e
        rw [if_pos rfl, entry_eraseP (h.nodup s), hsp]
        by_cases e' : p = a
        · simp [e']
        · have : ¬ ((s = a ∧ p = s) ∨ (s = s ∧ p = a)) := by
            rintro (k | k)
            · exact hab k.1.symm
            · exact e' k.2
          rw [if_neg e', if_neg this]
      · rw [if_neg e]
        by_cases e' : s = a
        · subst e'
          rw [if_pos rfl, entry_eraseP (h.nodup s), hsp]
          by_cases e'' : p = b
          · simp [e'']
          · have : ¬ ((s = s ∧ p = b) ∨ (s = b ∧ p = s)) := by
              rintro (k | k)
              · exact e'' k.2
              · exact e k.1
            rw [if_neg e'', if_neg this]
        · have : ¬ ((s = a ∧ p = b) ∨ (s = b ∧ p = a)) := by
            rintro (k | k)
            · exact e' k.1
            · exact e k.1
          rw [if_neg e', if_neg this, hsp]

theorem MPeer.delete {cidOf : Str → Cid} {w : Ref} {m : Memory} (h : MPeer cidOf w m) (c : Cid)
    (hi : RefInv cidOf (w.step (.delete c))) : MPeer cidOf (w.step (.delete c)) (m.step (.delete c)).1 := by
  by_cases hc : (w.name c).isSome
  · have e1 : (m.step (.delete c)).1 = (m.peersOf c).foldl (fun w p => dropPeer w p.cid c) (m.erase c) := by
      simp only [Memory.step, contains_eq, h.name, hc, if_true]
    have hpe : ∀ s, peersOf (m.erase c) s = if s = c then [] else m.peersOf s := by
      intro s
      unfold peersOf
      rw [AMap.get?_erase]
      by_cases e : s = c <;> simp [e]
    obtain ⟨i1, i2⟩ := fold_dropPeer c (m.peersOf c) (m.erase c) (by
      intro s
      rw [hpe]
      split
      · simp
      · exact h.nodup s)
    rw [e1]
    refine ⟨hi, fun d => ?_, i1, fun s p => ?_⟩
    · rw [nameOf_fold]
      simp only [Ref.step, hc, if_true]
      unfold nameOf
      rw [AMap.get?_erase]
      by_cases e : d = c
      · simp [e]
      · simp only [e, if_false]; exact h.name d
    · rw [i2, hpe]
      simp only [Ref.step, hc, if_true]
      have hsp := h.entry s p
      by_cases e : s = c
      · simp [e, Memory.entry]
      · by_cases e' : p = c
        · subst e'
          simp only [e, if_false, or_true, if_true, Option.map_none, true_and]
          split
          · rfl
          · rename_i hm
            rw [hsp]
            cases hx : w.peer s p with
            | none => rfl
            | some n =>
              refine absurd ?_ hm
              have := h.inv.sym hx
              have hent := h.entry p s
              obtain ⟨n', hn'⟩ := Option.isSome_iff_exists.mp this
              rw [hn'] at hent
              have hmem := List.mem_of_find?_eq_some hent
              exact List.mem_map.mpr ⟨_, hmem, rfl⟩
        · simp only [e, e', if_false, or_self, false_and, hsp]
  · have e1 : (m.step (.delete c)).1 = m := by
      simp only [Memory.step, contains_eq, h.name]; simp [hc]
    have e2 : w.step (.delete c) = w := by simp [Ref.step, hc]
    rw [e1, e2]; exact h

theorem MPeer.step {cidOf : Str → Cid} {w : Ref} {m : Memory} (o : Op) (hp : ServerOps cidOf w o) (hq : NewPeers w o)
    (h : MPeer cidOf w m) : MPeer cidOf (w.step o) (m.step o).1 := by
  have hi := h.inv.step o hp
  cases o with
  | save a =>
    have hp1 : w.name a.cid = none := hp.1
    have hg : m.get? a.cid = none := by
      have := h.name a.cid
      rw [hp1] at this
      simpa [nameOf] using this
    have hpe : ∀ s, (m.step (.save a)).1.peersOf s = m.peersOf s := by
      intro s
      simp only [Memory.step, peersOf]
      rw [AMap.get?_insert]
      by_cases e : s = a.cid
      · simp [e, hg]
      · simp [e]
    refine ⟨hi, fun c => ?_, fun s => by rw [hpe]; exact h.nodup s, fun s p => by rw [hpe]; exact h.entry s p⟩
    simp only [Memory.step, Ref.step, nameOf]
    rw [AMap.get?_insert]
    by_cases e : c = a.cid
    · simp [e]
    · simp only [e, if_false]; exact h.name c
  | delete c => exact h.delete c hi
  | purge => exact ⟨hi, fun _ => rfl, fun _ => List.nodup_nil, fun _ _ => rfl⟩
  | regServer a b => exact h.regServer hp.1 hp.2.1 hp.2.2 hq hi
  | regClient s p n => exact hp.elim
  | deregServer a b => exact h.deregServer a b hi
  | deregClient s p => exact hp.elim
  | sync s ps => exact hp.elim
  | store y v =>
    refine h.same hi ?_ ?_ (nameOf_modify _ _ _ fun _ => rfl) (peersOf_keep _ _ _ fun _ => rfl) <;>
      (simp only [Ref.step]; split <;> rfl)
  | remove y => exact h.same hi rfl rfl (nameOf_modify _ _ _ fun _ => rfl) (peersOf_keep _ _ _ fun _ => rfl)
  | removeAll s p key => exact h.same hi rfl rfl (nameOf_modify _ _ _ fun _ => rfl) (peersOf_keep _ _ _ fun _ => rfl)

theorem MPeer.empty (cidOf : Str → Cid) : MPeer cidOf Ref.empty [] :=
  ⟨RefInv.empty cidOf, fun _ => rfl, fun _ => List.nodup_nil, fun _ _ => rfl⟩

end Memory
end Verif.Backends

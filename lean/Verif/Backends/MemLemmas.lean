import Verif.Backends.RedisPeers
import Verif.Backends.SqlLemmas
/-
The store in memory follows the reference.
-/
namespace Verif.Backends
open Verif
namespace Memory
set_option linter.unusedSimpArgs false

theorem get?_modify (m : Memory) (c : Cid) (f : Mem → Mem) (d : Cid) :
    (m.modify c f).get? d = if d = c then (m.get? c).map f else m.get? d := by
  unfold modify
  cases h : m.get? c with
  | none =>
    by_cases e : d = c
    · subst e; simp [h]
    · simp [e]
  | some x =>
    show (AMap.insert m c (f x)).get? d = _
    rw [AMap.get?_insert]
    by_cases e : d = c
    · simp [e]
    · simp [e]

/-- The name of an account. -/
def nameOf (m : Memory) (c : Cid) : Option Str := (m.get? c).map fun x => x.acct.username

/-- The byte map of an account. -/
def bytesOf (m : Memory) (c : Cid) : Option ByteMap := (m.get? c).map Mem.bytes

theorem contains_eq (m : Memory) (c : Cid) : m.contains c = (m.nameOf c).isSome := by
  simp [AMap.contains, nameOf]

theorem getByte_eq (m : Memory) (x : Slot) :
    m.getByte x = (m.bytesOf x.session).bind fun b => (sub b x.peer x.key).get? x.sub := by
  unfold getByte bytesOf
  cases m.get? x.session <;> rfl

theorem getBytes_get? (m : Memory) (s p : Cid) (key k : Str) :
    (m.getBytes s p key).get? k = m.getByte ⟨s, p, key, k⟩ := by
  unfold getBytes getByte
  cases m.get? s <;> rfl

theorem nameOf_dropPeer (m : Memory) (c p d : Cid) : (m.dropPeer c p).nameOf d = m.nameOf d := by
  unfold nameOf dropPeer
  rw [get?_modify]
  by_cases e : d = c
  · subst e
    cases m.get? d <;> simp
  · simp [e]

theorem bytesOf_dropPeer (m : Memory) (c p d : Cid) : (m.dropPeer c p).bytesOf d = m.bytesOf d := by
  unfold bytesOf dropPeer
  rw [get?_modify]
  by_cases e : d = c
  · subst e
    cases m.get? d <;> simp
  · simp [e]

theorem peersOf_modify (m : Memory) (c : Cid) (f : Mem → Mem) (d : Cid) :
    (m.modify c f).peersOf d = if d = c then ((m.get? c).map fun x => (f x).peers).getD [] else m.peersOf d := by
  unfold peersOf
  rw [get?_modify]
  by_cases e : d = c
  · subst e
    cases m.get? d <;> simp
  · simp [e]

theorem peersOf_dropPeer (m : Memory) (c p d : Cid) :
    (m.dropPeer c p).peersOf d =
      if d = c then (m.peersOf c).eraseP fun e => e.cid = p else m.peersOf d := by
  unfold dropPeer
  rw [peersOf_modify]
  by_cases e : d = c
  · subst e
    simp only [if_true, peersOf]
    cases m.get? d <;> simp
  · simp [e]

theorem nameOf_fold (c d : Cid) : ∀ (l : List Peer) (m : Memory),
    (l.foldl (fun w p => dropPeer w p.cid c) m).nameOf d = m.nameOf d
  | [], _ => rfl
  | p :: l, m => by rw [List.foldl_cons, nameOf_fold c d l, nameOf_dropPeer]

theorem bytesOf_fold (c d : Cid) : ∀ (l : List Peer) (m : Memory),
    (l.foldl (fun w p => dropPeer w p.cid c) m).bytesOf d = m.bytesOf d
  | [], _ => rfl
  | p :: l, m => by rw [List.foldl_cons, bytesOf_fold c d l, bytesOf_dropPeer]

theorem get?_setSub (b : ByteMap) (p : Cid) (key : Str) (v : AMap Str Str) (p' : Cid) (key' : Str) :
    sub (setSub b p key v) p' key' = if p' = p ∧ key' = key then v else sub b p' key' := by
  unfold sub setSub
  rw [AMap.get?_insert]
  by_cases e : p' = p
  · subst e
    simp only [if_true, Option.getD_some, AMap.get?_insert, true_and]
    by_cases e' : key' = key
    · simp [e']
    · simp [e']
  · simp [e]

theorem sub_erase (b : ByteMap) (p : Cid) (key : Str) (p' : Cid) (key' : Str) :
    sub (b.insert p (((b.get? p).getD []).erase key)) p' key' = if p' = p ∧ key' = key then [] else sub b p' key' := by
  unfold sub
  rw [AMap.get?_insert]
  by_cases e : p' = p
  · subst e
    simp only [if_true, Option.getD_some, AMap.get?_erase, true_and]
    by_cases e' : key' = key
    · simp [e']
    · simp [e']
  · simp [e]

/-- Names and values of the reference. -/
structure MByte (w : Ref) (m : Memory) : Prop where
  name : ∀ c, m.nameOf c = w.name c
  byte : ∀ x, m.getByte x = w.byte x
  /-- Values belong to accounts. -/
  owner : ∀ x, (w.byte x).isSome → (w.name x.session).isSome

theorem MByte.same {w w' : Ref} {m m' : Memory} (h : MByte w m) (hn : w'.name = w.name) (hb : w'.byte = w.byte)
    (e1 : ∀ c, m'.nameOf c = m.nameOf c) (e2 : ∀ c, m'.bytesOf c = m.bytesOf c) : MByte w' m' := by
  refine ⟨fun c => ?_, fun x => ?_, fun x => ?_⟩
  · rw [e1, hn, h.name]
  · rw [hb, ← h.byte, getByte_eq, getByte_eq, e2]
  · rw [hb, hn]; exact h.owner x

theorem nameOf_modify (m : Memory) (c : Cid) (f : Mem → Mem) (hf : ∀ x, (f x).acct = x.acct) (d : Cid) :
    (m.modify c f).nameOf d = m.nameOf d := by
  unfold nameOf
  rw [get?_modify]
  by_cases e : d = c
  · subst e
    cases m.get? d <;> simp [hf]
  · simp [e]

theorem bytesOf_modify (m : Memory) (c : Cid) (f : Mem → Mem) (hf : ∀ x, (f x).bytes = x.bytes) (d : Cid) :
    (m.modify c f).bytesOf d = m.bytesOf d := by
  unfold bytesOf
  rw [get?_modify]
  by_cases e : d = c
  · subst e
    cases m.get? d <;> simp [hf]
  · simp [e]

theorem bytesOf_change (m : Memory) (c : Cid) (f : Mem → Mem) (g : ByteMap → ByteMap)
    (hf : ∀ x, (f x).bytes = g x.bytes) (d : Cid) :
    (m.modify c f).bytesOf d = if d = c then (m.bytesOf c).map g else m.bytesOf d := by
  unfold bytesOf
  rw [get?_modify]
  by_cases e : d = c
  · subst e
    cases m.get? d <;> simp [hf]
  · simp [e]

theorem bytesOf_isSome (m : Memory) (c : Cid) : (m.bytesOf c).isSome = (m.nameOf c).isSome := by
  unfold bytesOf nameOf; cases m.get? c <;> rfl

theorem MByte.step {w : Ref} {m : Memory} (o : Op) (hp : FreshAccounts w o) (h : MByte w m) :
    MByte (w.step o) (m.step o).1 := by
  cases o with
  | save a =>
    have hp : w.name a.cid = none := hp
    have hg : m.get? a.cid = none := by
      have := h.name a.cid
      rw [hp] at this
      simpa [nameOf] using this
    refine ⟨fun c => ?_, fun x => ?_, fun x hx => ?_⟩
    · simp only [Memory.step, Ref.step, nameOf]
      rw [AMap.get?_insert]
      by_cases e : c = a.cid
      · simp [e]
      · simp only [e, if_false]; exact h.name c
    · have hx := h.byte x
      simp only [Memory.step, Ref.step]
      rw [← hx, getByte_eq, getByte_eq]
      unfold bytesOf
      rw [AMap.get?_insert]
      by_cases e : x.session = a.cid
      · simp only [e, if_true, hg]; rfl
      · simp only [e, if_false]
    · have := h.owner x hx
      simp only [Ref.step]
      split
      · rfl
      · exact this
  | delete c =>
    simp only [Memory.step, Ref.step, contains_eq, h.name]
    by_cases hc : (w.name c).isSome
    · simp only [hc, if_true]
      refine ⟨fun d => ?_, fun x => ?_, fun x hx => ?_⟩
      · rw [nameOf_fold]
        unfold nameOf
        rw [AMap.get?_erase]
        by_cases e : d = c
        · simp [e]
        · simp only [e, if_false]; exact h.name d
      · rw [getByte_eq, bytesOf_fold]
        unfold bytesOf
        rw [AMap.get?_erase]
        by_cases e : x.session = c
        · simp [e]
        · simp only [e, if_false]
          rw [← h.byte, getByte_eq]; rfl
      · by_cases e : x.session = c
        · simp [e] at hx
        · simp only [e, if_false] at hx ⊢; exact h.owner x hx
    · simp only [hc]; exact h
  | purge =>
    exact ⟨fun c => rfl, fun x => rfl, fun x hx => by simp [Ref.step, Ref.empty] at hx⟩
  | regServer a b =>
    simp only [Memory.step]
    have ha := h.name a
    have hb := h.name b
    unfold nameOf at ha hb
    cases h1 : m.get? a with
    | none =>
      rw [h1] at ha
      simp only [Ref.step, ← ha]; exact h
    | some x =>
      cases h2 : m.get? b with
      | none =>
        rw [h2] at hb
        simp only [Ref.step, ← hb, Option.map_none]
        split
        · rename_i h' ; simp at h'
        · exact h
      | some y =>
        rw [h1] at ha; rw [h2] at hb
        simp only [Ref.step, ← ha, ← hb, Option.map_some]
        exact h.same rfl rfl
          (fun c => by rw [nameOf_modify, nameOf_modify] <;> intro _ <;> rfl)
          (fun c => by rw [bytesOf_modify, bytesOf_modify] <;> intro _ <;> rfl)
  | regClient s p n =>
    simp only [Memory.step, Ref.step, contains_eq, h.name]
    by_cases hc : (w.name s).isSome
    · simp only [hc, if_true]
      exact h.same rfl rfl (nameOf_modify _ _ _ fun _ => rfl) (bytesOf_modify _ _ _ fun _ => rfl)
    · simp only [hc]; exact h
  | deregServer a b =>
    refine h.same rfl rfl (fun c => ?_) (fun c => ?_) <;> simp only [Memory.step] <;>
      (repeat' split) <;> simp [nameOf_dropPeer, bytesOf_dropPeer]
  | deregClient s p =>
    refine h.same rfl rfl (fun c => ?_) (fun c => ?_) <;> simp only [Memory.step] <;>
      (repeat' split) <;> simp [nameOf_dropPeer, bytesOf_dropPeer]
  | sync s ps =>
    have h1 : ∀ c, (m.step (.sync s ps)).1.nameOf c = m.nameOf c := nameOf_modify _ _ _ fun _ => rfl
    have h2 : ∀ c, (m.step (.sync s ps)).1.bytesOf c = m.bytesOf c := bytesOf_modify _ _ _ fun _ => rfl
    simp only [Ref.step]
    split
    · exact h.same rfl rfl h1 h2
    · exact h.same rfl rfl h1 h2
  | store y v =>
    have h1 : ∀ c, (m.step (.store y v)).1.nameOf c = m.nameOf c := nameOf_modify _ _ _ fun _ => rfl
    have h2 : ∀ c, (m.step (.store y v)).1.bytesOf c = _ := bytesOf_change m y.session _
      (fun b => setSub b y.peer y.key ((sub b y.peer y.key).insert y.sub v)) fun _ => rfl
    have hs := bytesOf_isSome m y.session
    rw [h.name] at hs
    by_cases hc : (w.name y.session).isSome
    · rw [hc] at hs
      obtain ⟨b, hb⟩ := Option.isSome_iff_exists.mp hs
      have e2 : (w.step (.store y v)) = { w with byte := fun x => if x = y then some v else w.byte x } := by
        simp [Ref.step, hc]
      rw [e2]
      refine ⟨fun c => by rw [h1, h.name], fun x => ?_, fun x hx => ?_⟩
      · have hx := h.byte x
        rw [getByte_eq] at hx ⊢
        rw [h2]
        by_cases e : x.session = y.session
        · rw [e, hb] at hx
          simp only [e, if_true, hb, Option.map_some, Option.bind_some, get?_setSub] at hx ⊢
          by_cases e' : x.peer = y.peer ∧ x.key = y.key
          · rw [if_pos e', AMap.get?_insert]
            rw [e'.1, e'.2] at hx
            by_cases e'' : x.sub = y.sub
            · have : x = y := Db.slot_eq_iff.mp ⟨e, e'.1, e'.2, e''⟩
              simp [this]
            · have : x ≠ y := fun k => e'' (by rw [k])
              rw [if_neg e'', if_neg this, hx]
          · have : x ≠ y := fun k => e' (by rw [k]; exact ⟨rfl, rfl⟩)
            rw [if_neg e', if_neg this, hx]
        · have : x ≠ y := fun k => e (by rw [k])
          rw [if_neg e, hx]
          simp only [this, if_false]
      · by_cases e : x = y
        · subst e; exact hc
        · simp only [e, if_false] at hx; exact h.owner x hx
    · have e2 : (w.step (.store y v)) = w := by simp [Ref.step, hc]
      rw [e2]
      refine ⟨fun c => by rw [h1, h.name], fun x => ?_, h.owner⟩
      rw [← h.byte, getByte_eq, getByte_eq, h2]
      by_cases e : x.session = y.session
      · have hb : m.bytesOf y.session = none := by
          cases hb : m.bytesOf y.session with
          | none => rfl
          | some b => rw [hb] at hs; exact absurd hs.symm hc
        rw [if_pos e, e, hb]; rfl
      · rw [if_neg e]
  | remove y =>
    have h1 : ∀ c, (m.step (.remove y)).1.nameOf c = m.nameOf c := nameOf_modify _ _ _ fun _ => rfl
    have h2 : ∀ c, (m.step (.remove y)).1.bytesOf c = _ := bytesOf_change m y.session _
      (fun b => setSub b y.peer y.key ((sub b y.peer y.key).erase y.sub)) fun _ => rfl
    refine ⟨fun c => by rw [h1, h.name]; rfl, fun x => ?_, fun x hx => ?_⟩
    · have hx := h.byte x
      simp only [Ref.step]
      rw [getByte_eq] at hx ⊢
      rw [h2]
      by_cases e : x.session = y.session
      · rw [if_pos e]
        rw [e] at hx
        cases hb : m.bytesOf y.session with
        | none => rw [hb] at hx; simp only [Option.bind_none] at hx; simp [← hx]
        | some b =>
          rw [hb] at hx
          simp only [Option.map_some, Option.bind_some, get?_setSub] at hx ⊢
          by_cases e' : x.peer = y.peer ∧ x.key = y.key
          · rw [if_pos e', AMap.get?_erase]
            rw [e'.1, e'.2] at hx
            by_cases e'' : x.sub = y.sub
            · have : x = y := Db.slot_eq_iff.mp ⟨e, e'.1, e'.2, e''⟩
              simp [this]
            · have : x ≠ y := fun k => e'' (by rw [k])
              rw [if_neg e'', if_neg this, hx]
          · have : x ≠ y := fun k => e' (by rw [k]; exact ⟨rfl, rfl⟩)
            rw [if_neg e', if_neg this, hx]
      · have : x ≠ y := fun k => e (by rw [k])
        rw [if_neg e, if_neg this, hx]
    · simp only [Ref.step] at hx ⊢
      by_cases e : x = y
      · simp [e] at hx
      · simp only [e, if_false] at hx; exact h.owner x hx
  | removeAll s p key =>
    have h1 : ∀ c, (m.step (.removeAll s p key)).1.nameOf c = m.nameOf c := nameOf_modify _ _ _ fun _ => rfl
    have h2 : ∀ c, (m.step (.removeAll s p key)).1.bytesOf c = _ := bytesOf_change m s _
      (fun b => b.insert p (((b.get? p).getD []).erase key)) fun _ => rfl
    refine ⟨fun c => by rw [h1, h.name]; rfl, fun x => ?_, fun x hx => ?_⟩
    · have hx := h.byte x
      simp only [Ref.step]
      rw [getByte_eq] at hx ⊢
      rw [h2]
      by_cases e : x.session = s
      · rw [if_pos e]
        rw [e] at hx
        cases hb : m.bytesOf s with
        | none => rw [hb] at hx; simp only [Option.bind_none] at hx; simp [← hx]
        | some b =>
          rw [hb] at hx
          simp only [Option.map_some, Option.bind_some, sub_erase] at hx ⊢
          by_cases e' : x.peer = p ∧ x.key = key
          · rw [if_pos e', if_pos ⟨e, e'⟩]; rfl
          · rw [if_neg e', if_neg (fun k => e' k.2), hx]
      · rw [if_neg e, if_neg (fun k => e k.1), hx]
    · simp only [Ref.step] at hx ⊢
      by_cases e : x.session = s ∧ x.peer = p ∧ x.key = key
      · simp [e] at hx
      · rw [if_neg e] at hx; exact h.owner x hx

theorem MByte.empty : MByte Ref.empty [] := ⟨fun _ => rfl, fun _ => rfl, fun _ h => by simp [Ref.empty] at h⟩

end Memory
end Verif.Backends

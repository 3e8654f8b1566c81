/-
With a server that keeps to the protocol, in any order of the signals: the ids of connections.
-/
import Verif.PeerKex.Lemmas

namespace Verif.PeerKex

/-- The key pair a constructor works on. -/
def Con.x : Con → Nonce
  | .alice x => x
  | .bob x _ => x

/-- How many first messages for key pair number `v` are in a queue. -/
def cnt0 (v : Nat) : List Msg → Nat
  | [] => 0
  | .stage0 x _ :: l => (if x.n = v then 1 else 0) + cnt0 v l
  | _ :: l => cnt0 v l

def conC (v : Nat) (s : Slot) : Nat :=
  match s.kem with
  | none => 0
  | some k => match k.con with
    | none => 0
    | some c => if c.x.n = v then 1 else 0

def madeC (v : Nat) : List (Key × Nat) → Nat
  | [] => 0
  | c :: l => (if c.1.x.n = v then 1 else 0) + madeC v l

/-- Uses of number `v` at client `i`, or on the way to it. -/
def World.uses (w : World) (i : Side) (v : Nat) : Nat :=
  cnt0 v (w.up i.flip) + cnt0 v (w.down i) + conC v (w.slot i) + madeC v (w.slot i).made

def World.flying (w : World) (m : Msg) : Prop := ∃ i, m ∈ w.up i ∨ m ∈ w.down i

/-- First messages on the way. -/
def World.first (w : World) (v : Nat) : Nat :=
  cnt0 v w.upA + cnt0 v w.upB + cnt0 v w.downA + cnt0 v w.downB

/-- A key that somebody has answered with. -/
def World.claim (w : World) (k : Key) : Prop :=
  (∃ id, w.flying (.stage1 k.x k.y k.psk id)) ∨
  (∃ i q, (w.slot i).kem = some q ∧ q.con = some (.bob k.x k.y) ∧ q.psk = k.psk) ∨
  ∃ i id, (k, id) ∈ (w.slot i).made

structure Ids (w : World) : Prop where
  id0 : ∀ x id, w.flying (.stage0 x id) → id = x.n
  idk : ∀ i q c, (w.slot i).kem = some q → q.con = some c → q.id = c.x.n
  idm : ∀ i, ∀ c ∈ (w.slot i).made, c.2 = c.1.x.n
  uses : ∀ i v, w.uses i v ≤ 1 ∧ (w.next ≤ v → w.uses i v = 0)
  first : ∀ v, w.first v ≤ 1 ∧ (w.next ≤ v → w.first v = 0)
  fresh : ∀ k, w.claim k → k.x.n < w.next
  one : ∀ k k', w.claim k → w.claim k' → k.x.n = k'.x.n → k = k'
  none : ∀ x id, w.flying (.stage0 x id) → ∀ k, w.claim k → k.x.n ≠ x.n

theorem cnt0_append (v : Nat) (l l' : List Msg) : cnt0 v (l ++ l') = cnt0 v l + cnt0 v l' := by
  induction l with
  | nil => simp [cnt0]
  | cons m l ih => cases m <;> simp [cnt0, ih]; omega

theorem cnt0_none {v : Nat} {l : List Msg} (h : ∀ x id, Msg.stage0 x id ∉ l) : cnt0 v l = 0 := by
  induction l with
  | nil => rfl
  | cons m l ih =>
    have ih := ih (fun x id hm => h x id (List.mem_cons_of_mem _ hm))
    cases m with
    | stage0 x id => exact absurd (List.mem_cons_self ..) (h x id)
    | _ => simpa [cnt0] using ih

theorem cnt0_mem {x : Nonce} {id : Nat} {l : List Msg} (h : Msg.stage0 x id ∈ l) : 1 ≤ cnt0 x.n l := by
  induction l with
  | nil => cases h
  | cons m l ih =>
    rcases List.mem_cons.1 h with rfl | h
    · simp [cnt0]
    · have := ih h
      cases m <;> simp [cnt0] <;> omega

theorem madeC_mem {c : Key × Nat} {l : List (Key × Nat)} (h : c ∈ l) : 1 ≤ madeC c.1.x.n l := by
  induction l with
  | nil => cases h
  | cons d l ih =>
    rcases List.mem_cons.1 h with rfl | h
    · simp [madeC]
    · have := ih h; simp only [madeC]; omega

/-- A signal taken out of a queue. -/
theorem cnt0_erase {l : List Msg} {k : Nat} {m : Msg} (h : l[k]? = some m) (v : Nat) :
    cnt0 v l = cnt0 v [m] + cnt0 v (l.eraseIdx k) := by
  induction l generalizing k with
  | nil => simp at h
  | cons a l ih =>
    cases k with
    | zero =>
      simp only [List.getElem?_cons_zero, Option.some.injEq] at h
      subst h
      show _ = _ + cnt0 v l
      rw [← cnt0_append]; rfl
    | succ k =>
      simp only [List.getElem?_cons_succ] at h
      have := ih h
      simp only [List.eraseIdx_cons_succ]
      rw [show a :: l = [a] ++ l from rfl, show a :: l.eraseIdx k = [a] ++ l.eraseIdx k from rfl, cnt0_append,
        cnt0_append]
      omega

theorem ids_start (ca cb : Nat) : Ids (start ca cb) := by
  have hs : ∀ i, ((start ca cb).slot i).kem = none ∧ ((start ca cb).slot i).made = [] := by
    intro i; cases i <;> exact ⟨rfl, rfl⟩
  have hf : ∀ m, ¬ (start ca cb).flying m := by
    rintro m ⟨i, h⟩; cases i <;> simp [start, World.up, World.down] at h
  have hc : ∀ k, ¬ (start ca cb).claim k := by
    rintro k (⟨id, h⟩ | ⟨i, q, h, -⟩ | ⟨i, id, h⟩)
    · exact hf _ h
    · rw [(hs i).1] at h; cases h
    · rw [(hs i).2] at h; cases h
  exact ⟨fun x id h => absurd h (hf _), fun i q c h => (by rw [(hs i).1] at h; cases h),
    fun i c h => (by rw [(hs i).2] at h; cases h), fun i v => (by cases i <;> simp [start, World.uses, World.up,
      World.down, World.slot, Side.flip, cnt0, conC, madeC]), fun v => (by simp [start, World.first, cnt0]),
    fun k h => absurd h (hc k), fun k _ h => absurd h (hc k), fun x id h => absurd h (hf _)⟩

/-- A step that makes nothing new. -/
theorem ids_less {w w' : World} (h : Ids w) (hf0 : ∀ x id, w'.flying (.stage0 x id) → w.flying (.stage0 x id))
    (hf1 : ∀ x y p id, w'.flying (.stage1 x y p id) → w.flying (.stage1 x y p id))
    (hk : ∀ i k', (w'.slot i).kem = some k' → k'.con.isSome → (w.slot i).kem = some k')
    (hm : ∀ i, (w'.slot i).made = (w.slot i).made) (hn : w.next ≤ w'.next)
    (hc : ∀ i v, cnt0 v (w'.up i.flip) + cnt0 v (w'.down i) ≤ cnt0 v (w.up i.flip) + cnt0 v (w.down i)) : Ids w' := by
  have hcl : ∀ k, w'.claim k → w.claim k := by
    rintro k (⟨id, q⟩ | ⟨i, q, h1, h2, h3⟩ | ⟨i, id, q⟩)
    · exact .inl ⟨id, hf1 _ _ _ _ q⟩
    · exact .inr (.inl ⟨i, q, hk i q h1 (by simp [h2]), h2, h3⟩)
    · exact .inr (.inr ⟨i, id, by rwa [hm i] at q⟩)
  have hcon : ∀ i v, conC v (w'.slot i) ≤ conC v (w.slot i) := by
    intro i v
    cases e : (w'.slot i).kem with
    | none => simp [conC, e]
    | some k' =>
      cases e' : k'.con with
      | none => simp [conC, e, e']
      | some c => simp [conC, e, hk i k' e (by simp [e'])]
  have hu : ∀ i v, w'.uses i v ≤ w.uses i v := by
    intro i v
    have := hc i v; have := hcon i v
    unfold World.uses; rw [hm i]; omega
  have hfi : ∀ v, w'.first v ≤ w.first v := by
    intro v
    have h1 := hc .a v; have h2 := hc .b v
    simp only [Side.flip, World.up, World.down] at h1 h2
    unfold World.first; omega
  refine ⟨fun x id q => h.id0 x id (hf0 _ _ q), fun i q c q1 q2 => h.idk i q c (hk i q q1 (by simp [q2])) q2,
    fun i c q => h.idm i c (by rwa [hm i] at q), fun i v => ?_, fun v => ?_,
    fun k q => Nat.lt_of_lt_of_le (h.fresh k (hcl k q)) hn, fun k k' q q' => h.one k k' (hcl k q) (hcl k' q'),
    fun x id q k q' => h.none x id (hf0 _ _ q) k (hcl k q')⟩
  · have := hu i v; have := h.uses i v
    exact ⟨by omega, fun _ => by omega⟩
  · have := hfi v; have := h.first v
    exact ⟨by omega, fun _ => by omega⟩

/-! Accessors after a client has acted. -/

theorem wdid_slot_same (w : World) (i : Side) (r : Slot × List Msg) : (w.did i r).slot i = r.1 := by cases i <;> rfl
theorem wdid_slot_flip (w : World) (i : Side) (r : Slot × List Msg) : (w.did i r).slot i.flip = w.slot i.flip := by
  cases i <;> rfl
theorem wdid_up_same (w : World) (i : Side) (r : Slot × List Msg) : (w.did i r).up i = w.up i ++ r.2 := by
  cases i <;> rfl
theorem wdid_up_flip (w : World) (i : Side) (r : Slot × List Msg) : (w.did i r).up i.flip = w.up i.flip := by
  cases i <;> rfl
theorem wdid_down (w : World) (i j : Side) (r : Slot × List Msg) : (w.did i r).down j = w.down j := by
  cases i <;> cases j <;> rfl
theorem wdid_next (w : World) (i : Side) (r : Slot × List Msg) : (w.did i r).next = w.next := by cases i <;> rfl
theorem side_cases (i j : Side) : j = i ∨ j = i.flip := by cases i <;> cases j <;> simp [Side.flip]
@[simp] theorem flip_flip (i : Side) : i.flip.flip = i := by cases i <;> rfl
theorem flip_ne (i : Side) : i.flip ≠ i := by cases i <;> simp [Side.flip]

/-- A client acts, and makes nothing new. -/
theorem ids_did {w : World} (h : Ids w) (i : Side) (s' : Slot) (out : List Msg)
    (hk : ∀ k', s'.kem = some k' → k'.con.isSome → (w.slot i).kem = some k') (hm : s'.made = (w.slot i).made)
    (h0 : ∀ x id, Msg.stage0 x id ∉ out) (h1 : ∀ x y psk id, Msg.stage1 x y psk id ∉ out) :
    Ids (w.did i (s', out)) := by
  have hfl : ∀ m, m ∉ out → (w.did i (s', out)).flying m → w.flying m := by
    rintro m hno ⟨j, q⟩
    rw [wdid_down] at q
    rcases side_cases i j with rfl | rfl
    · rw [wdid_up_same] at q
      rcases q with q | q
      · rcases List.mem_append.1 q with q | q
        · exact ⟨_, .inl q⟩
        · exact absurd q hno
      · exact ⟨_, .inr q⟩
    · rw [wdid_up_flip] at q; exact ⟨_, q⟩
  refine ids_less h (fun x id => hfl _ (h0 x id)) (fun x y p id => hfl _ (h1 x y p id)) ?_ ?_
    (Nat.le_of_eq (wdid_next ..).symm) ?_
  · intro j k' e hc
    rcases side_cases i j with rfl | rfl
    · rw [wdid_slot_same] at e; exact hk k' e hc
    · rwa [wdid_slot_flip] at e
  · intro j
    rcases side_cases i j with rfl | rfl
    · rw [wdid_slot_same]; exact hm
    · rw [wdid_slot_flip]
  · intro j v
    rw [wdid_down]
    rcases side_cases i j with rfl | rfl
    · rw [wdid_up_flip]; exact Nat.le_refl _
    · rw [flip_flip, wdid_up_same, cnt0_append, cnt0_none h0]; exact Nat.le_refl _

theorem ids_next {w : World} (h : Ids w) (n : Nat) (hn : w.next ≤ n) : Ids { w with next := n } := by
  have hs : ∀ i, ({ w with next := n } : World).slot i = w.slot i := fun i => by cases i <;> rfl
  have hu : ∀ i, ({ w with next := n } : World).up i = w.up i := fun i => by cases i <;> rfl
  have hd : ∀ i, ({ w with next := n } : World).down i = w.down i := fun i => by cases i <;> rfl
  refine ids_less h ?_ ?_ ?_ (fun i => by rw [hs]) hn (fun i v => by rw [hu, hd]; exact Nat.le_refl _)
  · rintro x id ⟨i, q⟩; rw [hu, hd] at q; exact ⟨i, q⟩
  · rintro x y p id ⟨i, q⟩; rw [hu, hd] at q; exact ⟨i, q⟩
  · intro i k' e _; rwa [hs] at e

theorem mem_erase {l : List Msg} {k : Nat} {m : Msg} (h : m ∈ l.eraseIdx k) : m ∈ l := List.mem_of_mem_eraseIdx h

/-- The server sends messages that are none of a key exchange; it may forget a signal at will. -/
theorem ids_serve {w : World} (h : Ids w) (i : Side) (k : Nat) (m : Msg) (hm : (w.up i)[k]? = some m) :
    Ids (relay (w.setUp i ((w.up i).eraseIdx k)) i m) := by
  have hmem : m ∈ w.up i := List.mem_of_getElem? hm
  have hcnt := cnt0_erase hm
  -- what is needed of the new world
  have key : ∀ w' : World, (∀ j, w'.slot j = w.slot j) → w'.next = w.next → w'.up i = (w.up i).eraseIdx k →
      w'.up i.flip = w.up i.flip →
      (∀ j o, o ∈ w'.down j → o ∈ w.down j ∨ (o = m ∧ j = i.flip) ∨
        (∀ x id, o ≠ .stage0 x id) ∧ ∀ x y p id, o ≠ .stage1 x y p id) →
      (∀ v, cnt0 v (w'.down i) = cnt0 v (w.down i)) →
      (∀ v, cnt0 v (w'.down i.flip) ≤ cnt0 v (w.down i.flip) + cnt0 v [m]) → Ids w' := by
    intro w' hs hn hu hu' hd hc hc'
    have hup : ∀ j o, o ∈ w'.up j → o ∈ w.up j := by
      intro j o q
      rcases side_cases i j with rfl | rfl
      · rw [hu] at q; exact mem_erase q
      · rwa [hu'] at q
    refine ids_less h ?_ ?_ (fun j k' e _ => by rwa [hs] at e) (fun j => by rw [hs]) (Nat.le_of_eq hn.symm) ?_
    · rintro x id ⟨j, q | q⟩
      · exact ⟨j, .inl (hup j _ q)⟩
      · rcases hd j _ q with q | ⟨q, -⟩ | q
        · exact ⟨j, .inr q⟩
        · exact ⟨i, .inl (q ▸ hmem)⟩
        · exact absurd rfl (q.1 x id)
    · rintro x y p id ⟨j, q | q⟩
      · exact ⟨j, .inl (hup j _ q)⟩
      · rcases hd j _ q with q | ⟨q, -⟩ | q
        · exact ⟨j, .inr q⟩
        · exact ⟨i, .inl (q ▸ hmem)⟩
        · exact absurd rfl (q.2 x y p id)
    · intro j v
      rcases side_cases i j with rfl | rfl
      · rw [hu', hc]; exact Nat.le_refl _
      · have := hc' v; have := hcnt v
        rw [flip_flip, hu]; omega
  cases m with
  | request =>
    cases i <;> simp only [relay] <;> split <;> apply key <;>
      first
        | (intro j; cases j <;> rfl)
        | rfl
        | (intro j o q; cases j <;>
            simp [World.send, World.setDown, World.setUp, World.down, World.setPost, Side.flip] at q <;>
            (try rcases q with q | q) <;> simp_all [World.down, Side.flip])
        | (intro v; simp [World.send, World.setDown, World.setUp, World.down, World.setPost, Side.flip, cnt0_append, cnt0])
  | accept =>
    cases i <;> simp only [relay] <;> split <;> apply key <;>
      first
        | (intro j; cases j <;> rfl)
        | rfl
        | (intro j o q; cases j <;>
            simp [World.send, World.setDown, World.setUp, World.down, World.setPost, Side.flip] at q <;>
            (try rcases q with q | q) <;> simp_all [World.down, Side.flip])
        | (intro v; simp [World.send, World.setDown, World.setUp, World.down, World.setPost, Side.flip, cnt0_append, cnt0])
  | disconnect t =>
    cases i <;> simp only [relay] <;> split <;> apply key <;>
      first
        | (intro j; cases j <;> rfl)
        | rfl
        | (intro j o q; cases j <;>
            simp [World.send, World.setDown, World.setUp, World.down, World.setPost, Side.flip] at q <;>
            (try rcases q with q | q) <;> simp_all [World.down, Side.flip])
        | (intro v; simp [World.send, World.setDown, World.setUp, World.down, World.setPost, Side.flip, cnt0_append, cnt0])
  | error =>
    cases i <;> simp only [relay] <;> apply key <;>
      first
        | (intro j; cases j <;> rfl)
        | rfl
        | (intro j o q; cases j <;> exact .inl q)
        | (intro v; simp [World.setUp, World.down, Side.flip])
  | stage0 x id =>
    cases i <;> simp only [relay] <;> apply key <;>
      first
        | (intro j; cases j <;> rfl)
        | rfl
        | (intro j o q; cases j <;>
            simp [World.send, World.setDown, World.setUp, World.down, World.setPost, Side.flip] at q <;>
            (try rcases q with q | q) <;> simp_all [World.down, Side.flip])
        | (intro v; simp [World.send, World.setDown, World.setUp, World.down, World.setPost, Side.flip, cnt0_append])
  | stage1 x y p id =>
    cases i <;> simp only [relay] <;> apply key <;>
      first
        | (intro j; cases j <;> rfl)
        | rfl
        | (intro j o q; cases j <;>
            simp [World.send, World.setDown, World.setUp, World.down, World.setPost, Side.flip] at q <;>
            (try rcases q with q | q) <;> simp_all [World.down, Side.flip])
        | (intro v; simp [World.send, World.setDown, World.setUp, World.down, World.setPost, Side.flip, cnt0_append])
  | stage2 =>
    cases i <;> simp only [relay] <;> apply key <;>
      first
        | (intro j; cases j <;> rfl)
        | rfl
        | (intro j o q; cases j <;>
            simp [World.send, World.setDown, World.setUp, World.down, World.setPost, Side.flip] at q <;>
            (try rcases q with q | q) <;> simp_all [World.down, Side.flip])
        | (intro v; simp [World.send, World.setDown, World.setUp, World.down, World.setPost, Side.flip, cnt0_append])

/-! A client processes a signal. -/

/-- The world after client `i` has taken the `k`-th waiting signal and become `s'`. -/
structure After (w w' : World) (i : Side) (k : Nat) (s' : Slot) (out : List Msg) : Prop where
  slot : w'.slot i = s'
  slot' : w'.slot i.flip = w.slot i.flip
  up : w'.up i = w.up i ++ out
  up' : w'.up i.flip = w.up i.flip
  down : w'.down i = (w.down i).eraseIdx k
  down' : w'.down i.flip = w.down i.flip
  next : w'.next = w.next + 1

theorem after_deliver (w : World) (i : Side) (k : Nat) (s' : Slot) (out : List Msg) :
    After w { (w.setDown i ((w.down i).eraseIdx k)).did i (s', out) with next := w.next + 1 } i k s' out := by
  cases i <;> exact ⟨rfl, rfl, rfl, rfl, rfl, rfl, rfl⟩

namespace After

variable {w w' : World} {i : Side} {k : Nat} {s' : Slot} {out : List Msg}

theorem flying (h : After w w' i k s' out) {m : Msg} (hm : w'.flying m) : w.flying m ∨ m ∈ out := by
  obtain ⟨j, q⟩ := hm
  rcases side_cases i j with rfl | rfl
  · rw [h.up, h.down] at q
    rcases q with q | q
    · rcases List.mem_append.1 q with q | q
      · exact .inl ⟨_, .inl q⟩
      · exact .inr q
    · exact .inl ⟨_, .inr (mem_erase q)⟩
  · rw [h.up', h.down'] at q; exact .inl ⟨_, q⟩

theorem first (h : After w w' i k s' out) {m : Msg} (hm : (w.down i)[k]? = some m) (v : Nat) :
    w'.first v + cnt0 v [m] = w.first v + cnt0 v out := by
  have h1 := h.up; have h2 := h.up'; have h3 := h.down; have h4 := h.down'
  have hc := cnt0_erase hm v
  cases i <;> simp only [Side.flip, World.up, World.down] at h1 h2 h3 h4 hc <;> unfold World.first <;>
    rw [h1, h2, h3, h4, cnt0_append] <;> omega

theorem uses (h : After w w' i k s' out) {m : Msg} (hm : (w.down i)[k]? = some m) (v : Nat) :
    w'.uses i v + cnt0 v [m] + conC v (w.slot i) + madeC v (w.slot i).made =
      w.uses i v + conC v s' + madeC v s'.made := by
  have hc := cnt0_erase hm v
  unfold World.uses
  rw [h.up', h.down, h.slot]; omega

theorem uses' (h : After w w' i k s' out) (v : Nat) : w'.uses i.flip v = w.uses i.flip v + cnt0 v out := by
  unfold World.uses
  rw [flip_flip, h.up, h.down', h.slot', cnt0_append]; omega

end After

theorem flying_first {w : World} {x : Nonce} {id : Nat} (h : w.flying (.stage0 x id)) : 1 ≤ w.first x.n := by
  obtain ⟨j, q | q⟩ := h <;> have := cnt0_mem q <;> cases j <;>
    simp only [World.up, World.down] at this <;> unfold World.first <;> omega

theorem ids_deliver {w : World} (h : Ids w) (i : Side) (k : Nat) (m : Msg) (hm : (w.down i)[k]? = some m) :
    Ids { (w.setDown i ((w.down i).eraseIdx k)).did i (handle (w.slot i) w.next m) with next := w.next + 1 } := by
  have hfly : w.flying m := ⟨i, .inr (List.mem_of_getElem? hm)⟩
  have hd := did_handle (w.slot i) w.next m
  have ha := after_deliver w i k (handle (w.slot i) w.next m).1 (handle (w.slot i) w.next m).2
  rw [show ((handle (w.slot i) w.next m).1, (handle (w.slot i) w.next m).2) = handle (w.slot i) w.next m from rfl] at ha
  generalize ({ (w.setDown i ((w.down i).eraseIdx k)).did i (handle (w.slot i) w.next m) with
    next := w.next + 1 } : World) = w' at ha ⊢
  generalize (handle (w.slot i) w.next m).1 = s' at hd ha
  generalize (handle (w.slot i) w.next m).2 = out at hd ha
  have hslot : ∀ j, (j = i ∧ w'.slot j = s') ∨ (j = i.flip ∧ w'.slot j = w.slot j) := by
    intro j
    rcases side_cases i j with rfl | rfl
    · exact .inl ⟨rfl, ha.slot⟩
    · exact .inr ⟨rfl, ha.slot'⟩
  cases hd with
  | other _ _ _ h1 h2 h3 h4 h5 h6 =>
    have hno0 : ∀ x id, Msg.stage0 x id ∉ out := fun x id q => by rcases h6 _ q with e | e <;> cases e
    have hno1 : ∀ x y p id, Msg.stage1 x y p id ∉ out := fun x y p id q => by rcases h6 _ q with e | e <;> cases e
    refine ids_less h (fun x id q => (ha.flying q).resolve_right (hno0 x id))
      (fun x y p id q => (ha.flying q).resolve_right (hno1 x y p id)) ?_ ?_ (by rw [ha.next]; omega) ?_
    · intro j k' e hc
      rcases hslot j with ⟨rfl, q⟩ | ⟨rfl, q⟩
      · rw [q] at e; exact h4 k' e hc
      · rwa [q] at e
    · intro j
      rcases hslot j with ⟨rfl, q⟩ | ⟨rfl, q⟩
      · rw [q, h3]
      · rw [q]
    · intro j v
      rcases side_cases i j with rfl | rfl
      · have := cnt0_erase hm v
        rw [ha.up', ha.down]; omega
      · rw [flip_flip, ha.up, ha.down', cnt0_append, cnt0_none hno0]; exact Nat.le_refl _
  | accept _ h1 h2 h3 h4 h5 =>
    have hcl : ∀ q, w'.claim q → w.claim q := by
      rintro q (⟨id, hq⟩ | ⟨j, r, hq, hq2, hq3⟩ | ⟨j, id, hq⟩)
      · exact .inl ⟨id, (ha.flying hq).resolve_right (by simp)⟩
      · rcases hslot j with ⟨rfl, e⟩ | ⟨rfl, e⟩
        · rw [e, h4] at hq; cases hq; simp at hq2
        · rw [e] at hq; exact .inr (.inl ⟨_, r, hq, hq2, hq3⟩)
      · rcases hslot j with ⟨rfl, e⟩ | ⟨rfl, e⟩
        · rw [e, h3] at hq; exact .inr (.inr ⟨_, id, hq⟩)
        · rw [e] at hq; exact .inr (.inr ⟨_, id, hq⟩)
    refine ⟨?_, ?_, ?_, ?_, ?_, ?_, ?_, ?_⟩
    · intro x id q
      rcases ha.flying q with q | q
      · exact h.id0 x id q
      · simp only [List.mem_singleton, Msg.stage0.injEq] at q; rw [q.1, q.2]
    · intro j r c e hc
      rcases hslot j with ⟨rfl, q⟩ | ⟨rfl, q⟩
      · rw [q, h4] at e; cases e; simp at hc; subst hc; rfl
      · rw [q] at e; exact h.idk _ r c e hc
    · intro j c hc
      rcases hslot j with ⟨rfl, q⟩ | ⟨rfl, q⟩
      · rw [q, h3] at hc; exact h.idm _ c hc
      · rw [q] at hc; exact h.idm _ c hc
    · intro j v
      rw [ha.next]
      rcases side_cases i j with rfl | rfl
      · have q1 := ha.uses hm v
        have q2 := h.uses j v
        have q3 : conC v s' = if w.next = v then 1 else 0 := by simp only [conC, h4]; rfl
        rw [h3] at q1
        simp only [cnt0] at q1
        split at q3
        · have := q2.2 (by omega)
          exact ⟨by omega, fun _ => by omega⟩
        · refine ⟨by omega, fun _ => ?_⟩
          have := q2.2 (by omega)
          omega
      · have q1 := ha.uses' v
        have q2 := h.uses i.flip v
        simp only [cnt0] at q1
        split at q1
        · have := q2.2 (by omega)
          exact ⟨by omega, fun _ => by omega⟩
        · refine ⟨by omega, fun _ => ?_⟩
          have := q2.2 (by omega)
          omega
    · intro v
      rw [ha.next]
      have q1 := ha.first hm v
      have q2 := h.first v
      simp only [cnt0] at q1
      split at q1
      · have := q2.2 (by omega)
        exact ⟨by omega, fun _ => by omega⟩
      · refine ⟨by omega, fun _ => ?_⟩
        have := q2.2 (by omega)
        omega
    · intro q hq
      have := h.fresh q (hcl q hq); rw [ha.next]; omega
    · intro q q' hq hq'; exact h.one q q' (hcl q hq) (hcl q' hq')
    · intro x id hx q hq
      rcases ha.flying hx with hx | hx
      · exact h.none x id hx q (hcl q hq)
      · simp only [List.mem_singleton, Msg.stage0.injEq] at hx
        have := h.fresh q (hcl q hq)
        rw [hx.1]; simp only; omega
  | stage0 x id _ h1 h2 h3 h4 h5 =>
    have hid := h.id0 x id hfly
    have hcl : ∀ q, w'.claim q → w.claim q ∨ q = ⟨x, ⟨(w.slot i).who, w.next⟩, (w.slot i).psk.getD 0⟩ := by
      rintro q (⟨d, hq⟩ | ⟨j, r, hq, hq2, hq3⟩ | ⟨j, d, hq⟩)
      · rcases ha.flying hq with hq | hq
        · exact .inl (.inl ⟨d, hq⟩)
        · simp only [List.mem_singleton, Msg.stage1.injEq] at hq
          obtain ⟨e1, e2, e3, -⟩ := hq
          exact .inr (by cases q; simp only at e1 e2 e3; rw [e1, e2, e3])
      · rcases hslot j with ⟨rfl, e⟩ | ⟨rfl, e⟩
        · rw [e, h4] at hq; cases hq
          simp only [Option.some.injEq, Con.bob.injEq] at hq2
          exact .inr (by cases q; simp only at hq2 hq3; rw [← hq2.1, ← hq2.2, ← hq3])
        · rw [e] at hq; exact .inl (.inr (.inl ⟨_, r, hq, hq2, hq3⟩))
      · rcases hslot j with ⟨rfl, e⟩ | ⟨rfl, e⟩
        · rw [e, h3] at hq; exact .inl (.inr (.inr ⟨_, d, hq⟩))
        · rw [e] at hq; exact .inl (.inr (.inr ⟨_, d, hq⟩))
    have hlt : x.n < w.next := by
      have q1 := flying_first hfly
      have q2 := (h.first x.n).2
      by_cases e : w.next ≤ x.n
      · have := q2 e; omega
      · omega
    have hfl0 : ∀ x' id', w'.flying (.stage0 x' id') → w.flying (.stage0 x' id') :=
      fun x' id' q => (ha.flying q).resolve_right (by simp)
    refine ⟨?_, ?_, ?_, ?_, ?_, ?_, ?_, ?_⟩
    · intro x' id' q; exact h.id0 x' id' (hfl0 _ _ q)
    · intro j r c e hc
      rcases hslot j with ⟨rfl, q⟩ | ⟨rfl, q⟩
      · rw [q, h4] at e; cases e; simp at hc; subst hc; exact hid
      · rw [q] at e; exact h.idk _ r c e hc
    · intro j c hc
      rcases hslot j with ⟨rfl, q⟩ | ⟨rfl, q⟩
      · rw [q, h3] at hc; exact h.idm _ c hc
      · rw [q] at hc; exact h.idm _ c hc
    · intro j v
      rw [ha.next]
      rcases side_cases i j with rfl | rfl
      · have q1 := ha.uses hm v
        have q2 := h.uses j v
        have q3 : conC v s' = if x.n = v then 1 else 0 := by simp only [conC, h4]; rfl
        rw [h3] at q1
        simp only [cnt0] at q1
        refine ⟨by omega, fun _ => ?_⟩
        have := q2.2 (by omega)
        omega
      · have q1 := ha.uses' v
        have q2 := h.uses i.flip v
        simp only [cnt0] at q1
        refine ⟨by omega, fun _ => ?_⟩
        have := q2.2 (by omega)
        omega
    · intro v
      rw [ha.next]
      have q1 := ha.first hm v
      have q2 := h.first v
      simp only [cnt0] at q1
      refine ⟨by omega, fun _ => ?_⟩
      have := q2.2 (by omega)
      omega
    · intro q hq
      rw [ha.next]
      rcases hcl q hq with hq | rfl
      · have := h.fresh q hq; omega
      · simp only; omega
    · intro q q' hq hq' e
      rcases hcl q hq with hq | rfl <;> rcases hcl q' hq' with hq' | rfl
      · exact h.one q q' hq hq' e
      · exact absurd e (h.none x id hfly q hq)
      · exact absurd e.symm (h.none x id hfly q' hq')
      · rfl
    · intro x' id' hx q hq
      rcases hcl q hq with hq | rfl
      · exact h.none x' id' (hfl0 _ _ hx) q hq
      · simp only
        intro e
        have q1 := ha.first hm x'.n
        have q2 := (h.first x'.n).1
        have q3 := flying_first hx
        simp only [cnt0, e, if_true] at q1
        omega
  | stage1 x y psk id r _ h1 h2 h3 h4 h5 h6 h7 h8 h9 =>
    have hcon : ∀ v, conC v s' = 0 := by
      intro v
      cases e : s'.kem with
      | none => simp [conC, e]
      | some k' => simp [conC, e, h8 k' e]
    have hold : ∀ v, conC v (w.slot i) = if x.n = v then 1 else 0 := by
      intro v; simp only [conC, h3, h4]; rfl
    have hcl : ∀ q, w'.claim q → w.claim q := by
      rintro q (⟨d, hq⟩ | ⟨j, r', hq, hq2, hq3⟩ | ⟨j, d, hq⟩)
      · exact .inl ⟨d, (ha.flying hq).resolve_right (by simp)⟩
      · rcases hslot j with ⟨rfl, e⟩ | ⟨rfl, e⟩
        · rw [e] at hq; rw [h8 r' hq] at hq2; cases hq2
        · rw [e] at hq; exact .inr (.inl ⟨_, r', hq, hq2, hq3⟩)
      · rcases hslot j with ⟨rfl, e⟩ | ⟨rfl, e⟩
        · rw [e, h7] at hq
          rcases List.mem_cons.1 hq with hq | hq
          · cases hq; exact .inl ⟨id, hfly⟩
          · exact .inr (.inr ⟨_, d, hq⟩)
        · rw [e] at hq; exact .inr (.inr ⟨_, d, hq⟩)
    have hfl0 : ∀ x' id', w'.flying (.stage0 x' id') → w.flying (.stage0 x' id') :=
      fun x' id' q => (ha.flying q).resolve_right (by simp)
    refine ⟨?_, ?_, ?_, ?_, ?_, ?_, ?_, ?_⟩
    · intro x' id' q; exact h.id0 x' id' (hfl0 _ _ q)
    · intro j r' c e hc
      rcases hslot j with ⟨rfl, q⟩ | ⟨rfl, q⟩
      · rw [q] at e; rw [h8 r' e] at hc; cases hc
      · rw [q] at e; exact h.idk _ r' c e hc
    · intro j c hc
      rcases hslot j with ⟨rfl, q⟩ | ⟨rfl, q⟩
      · rw [q, h7] at hc
        rcases List.mem_cons.1 hc with rfl | hc
        · exact h.idk _ r _ h3 h4
        · exact h.idm _ c hc
      · rw [q] at hc; exact h.idm _ c hc
    · intro j v
      rw [ha.next]
      rcases side_cases i j with rfl | rfl
      · have q1 := ha.uses hm v
        have q2 := h.uses j v
        rw [h7, hcon, hold] at q1
        simp only [cnt0, madeC] at q1
        refine ⟨by omega, fun _ => ?_⟩
        have := q2.2 (by omega)
        omega
      · have q1 := ha.uses' v
        have q2 := h.uses i.flip v
        simp only [cnt0] at q1
        refine ⟨by omega, fun _ => ?_⟩
        have := q2.2 (by omega)
        omega
    · intro v
      rw [ha.next]
      have q1 := ha.first hm v
      have q2 := h.first v
      simp only [cnt0] at q1
      refine ⟨by omega, fun _ => ?_⟩
      have := q2.2 (by omega)
      omega
    · intro q hq
      have := h.fresh q (hcl q hq); rw [ha.next]; omega
    · intro q q' hq hq'; exact h.one q q' (hcl q hq) (hcl q' hq')
    · intro x' id' hx q hq; exact h.none x' id' (hfl0 _ _ hx) q (hcl q hq)
  | stage2 x y r _ h1 h2 h3 h4 h6 h7 h8 h9 =>
    have hcon : ∀ v, conC v s' = 0 := by
      intro v
      cases e : s'.kem with
      | none => simp [conC, e]
      | some k' => simp [conC, e, h8 k' e]
    have hold : ∀ v, conC v (w.slot i) = if x.n = v then 1 else 0 := by
      intro v; simp only [conC, h3, h4]; rfl
    have hcl : ∀ q, w'.claim q → w.claim q := by
      rintro q (⟨d, hq⟩ | ⟨j, r', hq, hq2, hq3⟩ | ⟨j, d, hq⟩)
      · exact .inl ⟨d, (ha.flying hq).resolve_right (by simp)⟩
      · rcases hslot j with ⟨rfl, e⟩ | ⟨rfl, e⟩
        · rw [e] at hq; rw [h8 r' hq] at hq2; cases hq2
        · rw [e] at hq; exact .inr (.inl ⟨_, r', hq, hq2, hq3⟩)
      · rcases hslot j with ⟨rfl, e⟩ | ⟨rfl, e⟩
        · rw [e, h7] at hq
          rcases List.mem_cons.1 hq with hq | hq
          · cases hq; exact .inr (.inl ⟨_, r, h3, h4, rfl⟩)
          · exact .inr (.inr ⟨_, d, hq⟩)
        · rw [e] at hq; exact .inr (.inr ⟨_, d, hq⟩)
    have hfl0 : ∀ x' id', w'.flying (.stage0 x' id') → w.flying (.stage0 x' id') :=
      fun x' id' q => (ha.flying q).resolve_right (by simp)
    refine ⟨?_, ?_, ?_, ?_, ?_, ?_, ?_, ?_⟩
    · intro x' id' q; exact h.id0 x' id' (hfl0 _ _ q)
    · intro j r' c e hc
      rcases hslot j with ⟨rfl, q⟩ | ⟨rfl, q⟩
      · rw [q] at e; rw [h8 r' e] at hc; cases hc
      · rw [q] at e; exact h.idk _ r' c e hc
    · intro j c hc
      rcases hslot j with ⟨rfl, q⟩ | ⟨rfl, q⟩
      · rw [q, h7] at hc
        rcases List.mem_cons.1 hc with rfl | hc
        · exact h.idk _ r _ h3 h4
        · exact h.idm _ c hc
      · rw [q] at hc; exact h.idm _ c hc
    · intro j v
      rw [ha.next]
      rcases side_cases i j with rfl | rfl
      · have q1 := ha.uses hm v
        have q2 := h.uses j v
        rw [h7, hcon, hold] at q1
        simp only [cnt0, madeC] at q1
        refine ⟨by omega, fun _ => ?_⟩
        have := q2.2 (by omega)
        omega
      · have q1 := ha.uses' v
        have q2 := h.uses i.flip v
        simp only [cnt0] at q1
        refine ⟨by omega, fun _ => ?_⟩
        have := q2.2 (by omega)
        omega
    · intro v
      rw [ha.next]
      have q1 := ha.first hm v
      have q2 := h.first v
      simp only [cnt0] at q1
      refine ⟨by omega, fun _ => ?_⟩
      have := q2.2 (by omega)
      omega
    · intro q hq
      have := h.fresh q (hcl q hq); rw [ha.next]; omega
    · intro q q' hq hq'; exact h.one q q' (hcl q hq) (hcl q' hq')
    · intro x' id' hx q hq; exact h.none x' id' (hfl0 _ _ hx) q (hcl q hq)

theorem ids_ask {w : World} (h : Ids w) (i : Side) (p : Nat) (m : Msg) (hm : m = .request ∨ m = .accept) :
    Ids (w.did i (ask (w.slot i) p m)) := by
  rcases ask_spec (w.slot i) p m with ⟨e1, e2, -⟩ | ⟨e1, e2, -⟩
  · rw [show ask (w.slot i) p m = (w.slot i, []) from Prod.ext e1 e2]
    exact ids_did h i _ _ (fun _ q _ => q) rfl (by simp) (by simp)
  · rw [show ask (w.slot i) p m = (_, [m]) from Prod.ext e1 e2]
    exact ids_did h i _ _ (fun _ q _ => q) rfl (by rcases hm with rfl | rfl <;> simp)
      (by rcases hm with rfl | rfl <;> simp)

theorem ids_idle {w : World} (h : Ids w) (i : Side) (s' : Slot) (out : List Msg) (hi : Idle (w.slot i) s' out) :
    Ids (w.did i (s', out)) :=
  ids_did h i s' out (fun _ q _ => hi.kem ▸ q) hi.made
    (fun x id hm => by obtain ⟨t, e⟩ := hi.out _ hm; cases e)
    (fun x y p id hm => by obtain ⟨t, e⟩ := hi.out _ hm; cases e)

theorem ids_step {w : World} (h : Ids w) (t : Act) : Ids (step w t) := by
  cases t with
  | connect i p => exact ids_ask h i p _ (.inl rfl)
  | respond i p =>
    simp only [step]
    split
    · exact ids_ask h i p _ (.inr rfl)
    · exact h
  | serve i k =>
    simp only [step]
    split
    · exact h
    · exact ids_serve h i k _ (by assumption)
  | deliver i k =>
    simp only [step]
    split
    · exact h
    · exact ids_deliver h i k _ (by assumption)
  | punched i n u => exact ids_idle h i _ _ (idle_punched _ _ _)
  | dropped i id =>
    simp only [step]
    split
    · exact ids_idle h i _ _ (idle_drop _ _)
    · exact h

theorem ids_run (l : List Act) : ∀ w, Ids w → Ids (run w l) := by
  induction l with
  | nil => intro w h; exact h
  | cons t ts ih => intro w h; exact ih _ (ids_step h t)

theorem made_nodup {l : List (Key × Nat)} (hi : ∀ c ∈ l, c.2 = c.1.x.n) (hc : ∀ v, madeC v l ≤ 1) :
    (l.map (·.2)).Nodup := by
  induction l with
  | nil => simp
  | cons c l ih =>
    rw [List.map_cons, List.nodup_cons]
    refine ⟨?_, ih (fun d hd => hi d (List.mem_cons_of_mem _ hd)) (fun v => ?_)⟩
    · intro hm
      obtain ⟨d, hd, e⟩ := List.mem_map.1 hm
      have h1 := hi c (List.mem_cons_self ..)
      have h2 := hi d (List.mem_cons_of_mem _ hd)
      have h3 := madeC_mem hd
      have h4 := hc d.1.x.n
      rw [madeC, if_pos (by omega)] at h4
      omega
    · have := hc v
      rw [madeC] at this; omega

end Verif.PeerKex

import Verif.Multiplex.Model
import Mathlib.Data.List.Induction
import Mathlib.Data.List.Nodup
import Mathlib.Tactic.Tauto

namespace Verif.Multiplex
open Verif

/-- Strictly decreasing list (newest first), i.e. strictly increasing over time. -/
abbrev Desc (l : List Nat) : Prop := l.Pairwise (fun x y => y < x)

/-- Per-endpoint invariant. -/
structure NInv (cap : Nat) (n : Node) : Prop where
  desc : Desc n.opened
  le : ∀ id ∈ n.opened, id ≤ n.cur
  pre : ∀ k, n.subs.get? k = some true ↔ n.cur < k ∧ k ≤ cap
  used : ∀ k, n.subs.get? k = some false → k ≤ n.cur
  ok : n.panicked = false

theorem get?_append_amap (m m' : AMap Nat Bool) (k : Nat) :
    AMap.get? (m ++ m') k = (AMap.get? m k).or (AMap.get? m' k) := by
  induction m with
  | nil => simp
  | cons e m ih =>
    obtain ⟨x, v⟩ := e
    rw [List.cons_append, AMap.get?_cons, AMap.get?_cons, ih]
    by_cases h : x = k <;> simp [h]

theorem prereserve_get (n k : Nat) :
    (prereserve n).get? k = if 0 < k ∧ k ≤ n then some true else none := by
  induction n with
  | zero =>
    rw [if_neg (by omega)]; rfl
  | succ n ih =>
    rw [prereserve, get?_append_amap, ih, AMap.get?_cons]
    by_cases h1 : 0 < k ∧ k ≤ n
    · have : 0 < k ∧ k ≤ n + 1 := by omega
      simp [h1, this]
    · by_cases h2 : n + 1 = k
      · rw [if_neg h1, if_pos h2, if_pos (by omega)]; rfl
      · have : ¬ (0 < k ∧ k ≤ n + 1) := by omega
        simp [h1, h2, this]

theorem ninv_new (cap : Nat) : NInv cap (newNode cap) := by
  refine ⟨List.Pairwise.nil, by simp [newNode], ?_, ?_, rfl⟩
  · intro k; simp only [newNode, prereserve_get]
    by_cases h : 0 < k ∧ k ≤ cap <;> simp [h]
  · intro k; simp only [newNode, prereserve_get]
    by_cases h : 0 < k ∧ k ≤ cap <;> simp [h]

theorem desc_cons {l : List Nat} {x c : Nat} (h : Desc l) (hl : ∀ y ∈ l, y ≤ c) (hx : c < x) : Desc (x :: l) := by
  refine List.pairwise_cons.2 ⟨fun y hy => ?_, h⟩
  have := hl y hy; omega

theorem ninv_prereserved {cap : Nat} {n : Node} (h : NInv cap n) {n' : Node} {id : Nat}
    (he : getNextPrereserved n = some (n', id)) :
    NInv cap n' ∧ n'.cur = n.cur + 1 ∧ n.cur < cap ∧ n'.idGen = n.idGen ∧ n'.opened = (n.cur + 1) :: n.opened ∧
      id = n.cur + 1 := by
  unfold getNextPrereserved at he
  by_cases hg : n.subs.get? (getProposedNext n.cur) = some true
  · simp only [hg, if_true, Option.some.injEq, Prod.mk.injEq] at he
    obtain ⟨rfl, rfl⟩ := he
    have hlt := (h.pre _).1 hg
    have e1 : getProposedNext n.cur = n.cur + 1 := by unfold getProposedNext; omega
    rw [e1] at hlt
    refine ⟨⟨?_, ?_, ?_, ?_, ?_⟩, rfl, by omega, rfl, by rw [e1], e1⟩
    · exact desc_cons h.desc h.le (by omega)
    · intro id hm
      show id ≤ n.cur + 1
      rcases List.mem_cons.1 hm with rfl | hm
      · omega
      · have := h.le id hm; omega
    · intro k
      show (n.subs.insert (getProposedNext n.cur) false).get? k = some true ↔ n.cur + 1 < k ∧ k ≤ cap
      rw [AMap.get?_insert, e1]
      by_cases hk : k = n.cur + 1
      · simp [hk]
      · simp only [hk, if_false, h.pre]; omega
    · intro k
      show (n.subs.insert (getProposedNext n.cur) false).get? k = some false → k ≤ n.cur + 1
      rw [AMap.get?_insert, e1]
      by_cases hk : k = n.cur + 1
      · simp [hk]
      · simp only [hk, if_false]; intro h'; have := h.used k h'; omega
    · show (n.panicked || (generateNext n.cur).2 != getProposedNext n.cur) = false
      simp [h.ok, generateNext, getProposedNext]
  · simp [hg] at he

theorem not_prereserved {cap : Nat} {n : Node} (h : NInv cap n) (he : getNextPrereserved n = none) : cap ≤ n.cur := by
  by_contra hc
  have : n.subs.get? (getProposedNext n.cur) = some true := (h.pre _).2 (by unfold getProposedNext; omega)
  simp [getNextPrereserved, this] at he

theorem ninv_subscribe {cap : Nat} {n : Node} (h : NInv cap n) (hc : cap ≤ n.cur) (id : Nat) (hid : n.cur < id)
    (m : Node) (hm : m.subs = n.subs ∧ m.cur = n.cur ∧ m.opened = n.opened ∧ m.panicked = n.panicked) :
    NInv cap (subscribe m id) ∧ (subscribe m id).cur = id ∧ (subscribe m id).opened = id :: n.opened := by
  obtain ⟨h1, h2, h3, h4⟩ := hm
  have hcur : (subscribe m id).cur = id := by
    simp only [subscribe, catchUpTo, h2]; omega
  refine ⟨⟨?_, ?_, ?_, ?_, ?_⟩, hcur, by simp [subscribe, h3]⟩
  · simp only [subscribe, h3]
    exact desc_cons h.desc h.le hid
  · rw [hcur]
    intro x hx
    simp only [subscribe, h3] at hx
    rcases List.mem_cons.1 hx with rfl | hx
    · exact Nat.le_refl _
    · have := h.le x hx; omega
  · rw [hcur]
    intro k
    simp only [subscribe, h1, AMap.get?_insert]
    by_cases hk : k = id
    · subst hk; simp
    · simp only [hk, if_false, h.pre]; omega
  · rw [hcur]
    intro k
    simp only [subscribe, h1, AMap.get?_insert]
    by_cases hk : k = id
    · subst hk; simp
    · simp only [hk, if_false]; intro h'; have := h.used k h'; omega
  · simp only [subscribe, h4, h.ok, h1, Bool.false_or]
    unfold AMap.contains
    cases hg : n.subs.get? id with
    | none => rfl
    | some b =>
      cases b with
      | true => have := (h.pre id).1 hg; omega
      | false => have := h.used id hg; omega

theorem ninv_close {cap : Nat} {n : Node} (h : NInv cap n) (id : Nat) :
    NInv cap (close n id) ∧ (close n id).cur = n.cur ∧ (close n id).opened = n.opened ∧ (close n id).idGen = n.idGen := by
  unfold close
  by_cases hm : id ∈ n.opened
  · simp only [hm, if_true]
    have hle := h.le id hm
    refine ⟨⟨h.desc, h.le, ?_, ?_, h.ok⟩, trivial, trivial, trivial⟩
    · intro k
      simp only [AMap.get?_erase]
      by_cases hk : k = id
      · subst hk; simp; omega
      · simp only [hk, if_false]; exact h.pre k
    · intro k
      simp only [AMap.get?_erase]
      by_cases hk : k = id
      · simp [hk]
      · simp only [hk, if_false]; exact h.used k
  · simp only [hm, if_false]; exact ⟨h, trivial, trivial, trivial⟩

/-- Global invariant, valid with or without cancellations. -/
structure Inv (cap : Nat) (s : State) : Prop where
  a : NInv cap s.a
  b : NInv cap s.b
  gen : s.a.idGen = max cap s.a.cur
  aCons : s.a.opened = (List.range' 1 s.a.cur).reverse
  asc : s.toB.Pairwise (· < ·)
  mid : ∀ x ∈ s.toB, max cap s.b.cur < x ∧ x ≤ s.a.idGen
  bLe : s.b.cur ≤ s.a.idGen

theorem inv_init (cap : Nat) : Inv cap (init cap) := by
  refine ⟨ninv_new cap, ninv_new cap, by simp [init, newNode], rfl, List.Pairwise.nil, by simp [init], by simp [init, newNode]⟩

theorem range'_snoc (n : Nat) : (n + 1) :: (List.range' 1 n).reverse = (List.range' 1 (n + 1)).reverse := by
  rw [List.range'_concat, List.reverse_append]
  simp; omega

theorem inv_step (cap : Nat) (s : State) (op : Op) (h : Inv cap s) : Inv cap (step s op) := by
  cases op with
  | aOpen =>
    simp only [step]
    split
    · exact h
    · cases hp : getNextPrereserved s.a with
      | some r =>
        obtain ⟨a', id⟩ := r
        obtain ⟨h1, h2, h3, h4, h5, -⟩ := ninv_prereserved h.a hp
        simp only
        have hg := h.gen
        refine ⟨h1, h.b, ?_, ?_, h.asc, ?_, ?_⟩
        · show a'.idGen = max cap a'.cur
          rw [h4, h2, h.gen]; omega
        · show a'.opened = _
          rw [h5, h.aCons, h2]; exact range'_snoc _
        · show ∀ x ∈ s.toB, max cap s.b.cur < x ∧ x ≤ a'.idGen
          rw [h4]; exact h.mid
        · show s.b.cur ≤ a'.idGen
          rw [h4]; exact h.bLe
      | none =>
        have hc := not_prereserved h.a hp
        have hgen := h.gen
        have e : s.a.idGen = s.a.cur := by rw [hgen]; omega
        obtain ⟨h1, h2, h3⟩ := ninv_subscribe h.a hc (1 + s.a.idGen) (by omega)
          { s.a with idGen := s.a.idGen + 1 } ⟨rfl, rfl, rfl, rfl⟩
        simp only [generateNext]
        have hidg : (subscribe { s.a with idGen := s.a.idGen + 1 } (1 + s.a.idGen)).idGen = s.a.idGen + 1 := rfl
        refine ⟨h1, h.b, ?_, ?_, ?_, ?_, ?_⟩
        · show (subscribe _ _).idGen = max cap (subscribe _ _).cur
          rw [h2, hidg]; omega
        · show (subscribe _ _).opened = (List.range' 1 (subscribe _ _).cur).reverse
          rw [h3, h2, h.aCons, e, Nat.add_comm 1]; exact range'_snoc _
        · refine List.pairwise_append.2 ⟨h.asc, by simp, ?_⟩
          intro x hx y hy
          have := (h.mid x hx).2
          simp only [List.mem_singleton] at hy
          omega
        · show ∀ x ∈ s.toB ++ [1 + s.a.idGen], max cap s.b.cur < x ∧ x ≤ (subscribe _ _).idGen
          rw [hidg]
          intro x hx
          rcases List.mem_append.1 hx with hx | hx
          · have := h.mid x hx; omega
          · simp only [List.mem_singleton] at hx
            have := h.bLe; omega
        · show s.b.cur ≤ (subscribe _ _).idGen
          rw [hidg]; have := h.bLe; omega
  | aAnswer =>
    simp only [step]
    split
    · exact ⟨h.a, h.b, h.gen, h.aCons, h.asc, h.mid, h.bLe⟩
    · exact h
  | aCancel => exact ⟨h.a, h.b, h.gen, h.aCons, h.asc, h.mid, h.bLe⟩
  | bOpen =>
    simp only [step]
    cases hp : getNextPrereserved s.b with
    | some r =>
      obtain ⟨b', id⟩ := r
      obtain ⟨h1, h2, h3, h4, h5, -⟩ := ninv_prereserved h.b hp
      simp only
      have hgen := h.gen
      refine ⟨h.a, h1, h.gen, h.aCons, h.asc, ?_, ?_⟩
      · show ∀ x ∈ s.toB, max cap b'.cur < x ∧ x ≤ s.a.idGen
        intro x hx; have := h.mid x hx; omega
      · show b'.cur ≤ s.a.idGen
        omega
    | none =>
      have hc := not_prereserved h.b hp
      simp only
      cases htb : s.toB with
      | nil => simpa [htb] using h
      | cons id rest =>
        have hm := h.mid id (by rw [htb]; exact List.mem_cons_self ..)
        have hasc := h.asc
        rw [htb] at hasc
        obtain ⟨ha1, ha2⟩ := List.pairwise_cons.1 hasc
        obtain ⟨h1, h2, h3⟩ := ninv_subscribe h.b hc id (by omega) s.b ⟨rfl, rfl, rfl, rfl⟩
        refine ⟨h.a, h1, h.gen, h.aCons, ha2, ?_, ?_⟩
        · show ∀ x ∈ rest, max cap (subscribe s.b id).cur < x ∧ x ≤ s.a.idGen
          rw [h2]
          intro x hx
          have := ha1 x hx
          have := h.mid x (by rw [htb]; exact List.mem_cons_of_mem _ hx)
          omega
        · show (subscribe s.b id).cur ≤ s.a.idGen
          rw [h2]; exact hm.2
  | bOpenCancelled =>
    simp only [step]
    cases hp : getNextPrereserved s.b with
    | some r =>
      obtain ⟨b', id⟩ := r
      obtain ⟨h1, h2, h3, h4, h5, -⟩ := ninv_prereserved h.b hp
      simp only
      have hgen := h.gen
      refine ⟨h.a, h1, h.gen, h.aCons, h.asc, ?_, ?_⟩
      · show ∀ x ∈ s.toB, max cap b'.cur < x ∧ x ≤ s.a.idGen
        intro x hx; have := h.mid x hx; omega
      · show b'.cur ≤ s.a.idGen
        omega
    | none =>
      have hc := not_prereserved h.b hp
      simp only
      cases htb : s.toB with
      | nil => simpa [htb] using h
      | cons id rest =>
        have hm := h.mid id (by rw [htb]; exact List.mem_cons_self ..)
        have hasc := h.asc
        rw [htb] at hasc
        obtain ⟨ha1, ha2⟩ := List.pairwise_cons.1 hasc
        obtain ⟨h1, h2, h3⟩ := ninv_subscribe h.b hc id (by omega) s.b ⟨rfl, rfl, rfl, rfl⟩
        refine ⟨h.a, h1, h.gen, h.aCons, ha2, ?_, ?_⟩
        · show ∀ x ∈ rest, max cap (subscribe s.b id).cur < x ∧ x ≤ s.a.idGen
          rw [h2]
          intro x hx
          have := ha1 x hx
          have := h.mid x (by rw [htb]; exact List.mem_cons_of_mem _ hx)
          omega
        · show (subscribe s.b id).cur ≤ s.a.idGen
          rw [h2]; exact hm.2
  | aClose id =>
    obtain ⟨h1, h2, h3, h4⟩ := ninv_close h.a id
    refine ⟨h1, h.b, ?_, ?_, h.asc, ?_, ?_⟩ <;> simp only [step, h2, h3, h4]
    · exact h.gen
    · exact h.aCons
    · exact h.mid
    · exact h.bLe
  | bClose id =>
    obtain ⟨h1, h2, h3, h4⟩ := ninv_close h.b id
    refine ⟨h.a, h1, h.gen, h.aCons, h.asc, ?_, ?_⟩ <;> simp only [step, h2]
    · exact h.mid
    · exact h.bLe

theorem inv_run (cap : Nat) (ops : List Op) : Inv cap (run (init cap) ops) := by
  induction ops using List.reverseRecOn with
  | nil => exact inv_init cap
  | append_singleton ops op ih =>
    rw [run, List.foldl_append]
    exact inv_step cap _ op ih

/-- Pairing invariant, for histories without cancellation. -/
structure PInv (cap : Nat) (s : State) : Prop where
  base : Inv cap s
  bCons : s.b.opened = (List.range' 1 s.b.cur).reverse
  toB : s.toB = List.range' (max cap s.b.cur + 1) (s.a.idGen - max cap s.b.cur)
  chan : (s.waiting = none ∧ s.toA = [] ∧ s.toB = []) ∨
    (∃ id, s.waiting = some id ∧ ((s.toB = [id] ∧ s.toA = []) ∨ (s.toB = [] ∧ s.toA = [id])))
  log : ∀ e ∈ s.log, e.1 = e.2

theorem pinv_init (cap : Nat) : PInv cap (init cap) :=
  ⟨inv_init cap, rfl, by simp [init, newNode], Or.inl ⟨rfl, rfl, rfl⟩, by simp [init]⟩

theorem pinv_step (cap : Nat) (s : State) (op : Op) (h : PInv cap s) (h1 : op ≠ .aCancel) (h2 : op ≠ .bOpenCancelled) :
    PInv cap (step s op) := by
  have hbase := inv_step cap s op h.base
  have hb := h.base
  cases op with
  | aCancel => exact absurd rfl h1
  | bOpenCancelled => exact absurd rfl h2
  | aOpen =>
    simp only [step] at hbase ⊢
    by_cases hw : s.waiting.isSome
    · simp only [hw, if_true] at hbase ⊢; exact h
    · simp only [hw, if_false, Bool.false_eq_true] at hbase ⊢
      have hnone : s.waiting = none := by cases hh : s.waiting <;> simp_all
      cases hp : getNextPrereserved s.a with
      | some r =>
        obtain ⟨a', id⟩ := r
        obtain ⟨-, -, -, h4, -, -⟩ := ninv_prereserved hb.a hp
        simp only [hp] at hbase ⊢
        refine ⟨hbase, h.bCons, ?_, h.chan, h.log⟩
        show s.toB = List.range' _ (a'.idGen - _)
        rw [h4]; exact h.toB
      | none =>
        simp only [hp, generateNext] at hbase ⊢
        rcases h.chan with ⟨-, ha, htb⟩ | ⟨id, hid, -⟩
        · refine ⟨hbase, h.bCons, ?_, Or.inr ⟨_, rfl, Or.inl ⟨?_, ha⟩⟩, h.log⟩
          · show s.toB ++ [1 + s.a.idGen] = List.range' (max cap s.b.cur + 1) (s.a.idGen + 1 - max cap s.b.cur)
            have hlen := congrArg List.length h.toB
            rw [htb] at hlen
            simp only [List.length_nil, List.length_range'] at hlen
            have hle := hb.bLe
            have hgen := hb.gen
            have e : s.a.idGen = max cap s.b.cur := by omega
            rw [htb, ← e, show s.a.idGen + 1 - s.a.idGen = 1 by omega]
            simp; omega
          · rw [htb]; rfl
        · rw [hnone] at hid; cases hid
  | aAnswer =>
    simp only [step] at hbase ⊢
    rcases h.chan with ⟨hw, ha, htb⟩ | ⟨id, hw, ⟨htb, ha⟩ | ⟨htb, ha⟩⟩
    · simp only [hw, ha] at hbase ⊢; exact h
    · simp only [hw, ha] at hbase ⊢; exact h
    · simp only [hw, ha] at hbase ⊢
      refine ⟨hbase, h.bCons, h.toB, Or.inl ⟨rfl, rfl, htb⟩, ?_⟩
      intro e he
      rcases List.mem_cons.1 he with rfl | he
      · rfl
      · exact h.log e he
  | bOpen =>
    simp only [step] at hbase ⊢
    cases hp : getNextPrereserved s.b with
    | some r =>
      obtain ⟨b', id⟩ := r
      obtain ⟨-, e2, e3, -, e5, -⟩ := ninv_prereserved hb.b hp
      simp only [hp] at hbase ⊢
      refine ⟨hbase, ?_, ?_, h.chan, h.log⟩
      · show b'.opened = _
        rw [e5, h.bCons, e2]; exact range'_snoc _
      · show s.toB = List.range' (max cap b'.cur + 1) (s.a.idGen - max cap b'.cur)
        rw [show max cap b'.cur = max cap s.b.cur by omega]; exact h.toB
    | none =>
      have hc := not_prereserved hb.b hp
      simp only [hp] at hbase ⊢
      rcases h.chan with ⟨hw, ha, htb⟩ | ⟨id, hw, ⟨htb, ha⟩ | ⟨htb, ha⟩⟩
      · simp only [htb] at hbase ⊢; exact h
      · simp only [htb] at hbase ⊢
        have hm := hb.mid id (by rw [htb]; exact List.mem_cons_self ..)
        obtain ⟨-, e2, e3⟩ := ninv_subscribe hb.b hc id (by omega) s.b ⟨rfl, rfl, rfl, rfl⟩
        have hto := h.toB
        rw [htb] at hto
        have hlen := congrArg List.length hto
        simp only [List.length_cons, List.length_nil, List.length_range'] at hlen
        rw [show s.a.idGen - max cap s.b.cur = 1 by omega] at hto
        have hto : id = max cap s.b.cur + 1 := by simpa using hto
        refine ⟨hbase, ?_, ?_, Or.inr ⟨id, hw, Or.inr ⟨rfl, by rw [ha]; rfl⟩⟩, h.log⟩
        · show (subscribe s.b id).opened = (List.range' 1 (subscribe s.b id).cur).reverse
          rw [e3, e2, h.bCons, hto, show max cap s.b.cur = s.b.cur by omega]
          exact range'_snoc _
        · show [] = List.range' (max cap (subscribe s.b id).cur + 1) (s.a.idGen - max cap (subscribe s.b id).cur)
          rw [e2, show s.a.idGen - max cap id = 0 by omega]; rfl
      · simp only [htb] at hbase ⊢; exact h
  | aClose id =>
    obtain ⟨-, e2, e3, e4⟩ := ninv_close hb.a id
    refine ⟨hbase, h.bCons, ?_, h.chan, h.log⟩
    simp only [step, e4]; exact h.toB
  | bClose id =>
    obtain ⟨-, e2, e3, e4⟩ := ninv_close hb.b id
    refine ⟨hbase, ?_, ?_, h.chan, h.log⟩
    · simp only [step, e2, e3]; exact h.bCons
    · simp only [step, e2]; exact h.toB

theorem pinv_run (cap : Nat) (ops : List Op) (h1 : Op.aCancel ∉ ops) (h2 : Op.bOpenCancelled ∉ ops) :
    PInv cap (run (init cap) ops) := by
  induction ops using List.reverseRecOn with
  | nil => exact pinv_init cap
  | append_singleton ops op ih =>
    rw [run, List.foldl_append]
    simp only [List.mem_append, List.mem_singleton, not_or] at h1 h2
    exact pinv_step cap _ op (ih h1.1 h2.1) (fun h => h1.2 h.symm) (fun h => h2.2 h.symm)

theorem ninv_brun (cap : Nat) (ops : List BOp) (hinc : (proposals ops).Pairwise (· < ·))
    (hcap : ∀ id ∈ proposals ops, cap < id) :
    NInv cap (brun (newNode cap) ops) ∧
      ((brun (newNode cap) ops).cur ≤ cap ∨ (brun (newNode cap) ops).cur ∈ proposals ops) := by
  induction ops using List.reverseRecOn with
  | nil => exact ⟨ninv_new cap, Or.inl (Nat.zero_le _)⟩
  | append_singleton ops op ih =>
    have hb : brun (newNode cap) (ops ++ [op]) = bstep (brun (newNode cap) ops) op := by
      rw [brun, List.foldl_append]; rfl
    rw [hb]
    cases op with
    | close id =>
      have hp : proposals (ops ++ [.close id]) = proposals ops := by simp [proposals]
      rw [hp] at hinc hcap ⊢
      obtain ⟨h1, h2, -, -⟩ := ninv_close (ih hinc hcap).1 id
      exact ⟨h1, by rw [show bstep _ (.close id) = close _ id from rfl, h2]; exact (ih hinc hcap).2⟩
    | openWith id =>
      have hp : proposals (ops ++ [.openWith id]) = proposals ops ++ [id] := by simp [proposals]
      rw [hp] at hinc hcap ⊢
      obtain ⟨hi, -, hlt⟩ := List.pairwise_append.1 hinc
      obtain ⟨h1, h2⟩ := ih hi (fun x hx => hcap x (List.mem_append_left _ hx))
      simp only [bstep]
      cases hg : getNextPrereserved (brun (newNode cap) ops) with
      | some r =>
        obtain ⟨n', id'⟩ := r
        obtain ⟨e1, e2, e3, -, -, -⟩ := ninv_prereserved h1 hg
        exact ⟨e1, Or.inl (by simp only [e2]; omega)⟩
      | none =>
        have hc := not_prereserved h1 hg
        have hid : (brun (newNode cap) ops).cur < id := by
          rcases h2 with h2 | h2
          · have := hcap id (by simp); omega
          · exact hlt _ h2 id (by simp)
        obtain ⟨e1, e2, -⟩ := ninv_subscribe h1 hc id hid _ ⟨rfl, rfl, rfl, rfl⟩
        exact ⟨e1, Or.inr (by simp only [e2]; simp)⟩

end Verif.Multiplex

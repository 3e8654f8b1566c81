import Verif.Queue.Spec
import Mathlib.Data.List.Induction
import Mathlib.Data.List.Nodup
import Mathlib.Data.List.Perm.Basic
import Mathlib.Tactic.Tauto

namespace Verif.Queue
open Verif

theorem run_append (w : Worker) (a b : List Op) :
    run w (a ++ b) = ((run (run w a).1 b).1, (run w a).2 ++ (run (run w a).1 b).2) := by
  induction a generalizing w with
  | nil => simp [run]
  | cons op a ih => simp [run, ih]

/-- Tickets minted by a history when the handle counter starts at `k`. -/
def minted : Nat → List Op → List Ticket
  | _, [] => []
  | k, .ordinary idx cid _ :: ops => .periodic (idx + reservedIndex + k) cid :: minted (k + 1) ops
  | k, .handleReserved (some t) _ :: ops => t :: minted k ops
  | k, .workerReserved (some t) _ :: ops => t :: minted k ops
  | k, _ :: ops => minted k ops

theorem ordinaries_append (a b : List Op) : ordinaries (a ++ b) = ordinaries a ++ ordinaries b := by
  induction a with
  | nil => rfl
  | cons op a ih => cases op <;> simp [ordinaries, ih]

theorem explicitTickets_append (a b : List Op) :
    explicitTickets (a ++ b) = explicitTickets a ++ explicitTickets b := by
  induction a with
  | nil => rfl
  | cons op a ih =>
    match op with
    | .ordinary .. => simp [explicitTickets, ih]
    | .handleReserved none _ => simp [explicitTickets, ih]
    | .handleReserved (some t) _ => simp [explicitTickets, ih]
    | .workerReserved none _ => simp [explicitTickets, ih]
    | .workerReserved (some t) _ => simp [explicitTickets, ih]
    | .recv => simp [explicitTickets, ih]
    | .expire .. => simp [explicitTickets, ih]

theorem mem_minted (k : Nat) (ops : List Op) (t : Ticket) (h : t ∈ minted k ops) :
    t ∈ explicitTickets ops ∨
      ∃ idx cid j, t = .periodic (idx + reservedIndex + j) cid ∧ k ≤ j ∧ (idx, cid) ∈ ordinaries ops := by
  induction ops generalizing k with
  | nil => cases h
  | cons op ops ih =>
    match op with
    | .ordinary i c _ =>
      rcases List.mem_cons.1 h with rfl | h
      · right; exact ⟨i, c, k, rfl, Nat.le_refl _, by simp [ordinaries]⟩
      · rcases ih _ h with h | ⟨i', c', j, h1, h2, h3⟩
        · left; simpa [explicitTickets] using h
        · right; exact ⟨i', c', j, h1, by omega, by simp [ordinaries, h3]⟩
    | .handleReserved none _ =>
      rcases ih _ h with h | ⟨i', c', j, h1, h2, h3⟩
      · left; simpa [explicitTickets] using h
      · right; exact ⟨i', c', j, h1, h2, by simpa [ordinaries] using h3⟩
    | .workerReserved none _ =>
      rcases ih _ h with h | ⟨i', c', j, h1, h2, h3⟩
      · left; simpa [explicitTickets] using h
      · right; exact ⟨i', c', j, h1, h2, by simpa [ordinaries] using h3⟩
    | .recv =>
      rcases ih _ h with h | ⟨i', c', j, h1, h2, h3⟩
      · left; simpa [explicitTickets] using h
      · right; exact ⟨i', c', j, h1, h2, by simpa [ordinaries] using h3⟩
    | .expire .. =>
      rcases ih _ h with h | ⟨i', c', j, h1, h2, h3⟩
      · left; simpa [explicitTickets] using h
      · right; exact ⟨i', c', j, h1, h2, by simpa [ordinaries] using h3⟩
    | .handleReserved (some t') _ =>
      rcases List.mem_cons.1 h with rfl | h
      · left; simp [explicitTickets]
      · rcases ih _ h with h | ⟨i', c', j, h1, h2, h3⟩
        · left; simp [explicitTickets, h]
        · right; exact ⟨i', c', j, h1, h2, by simpa [ordinaries] using h3⟩
    | .workerReserved (some t') _ =>
      rcases List.mem_cons.1 h with rfl | h
      · left; simp [explicitTickets]
      · rcases ih _ h with h | ⟨i', c', j, h1, h2, h3⟩
        · left; simp [explicitTickets, h]
        · right; exact ⟨i', c', j, h1, h2, by simpa [ordinaries] using h3⟩

/-- Under the two disciplines all minted tickets are different. -/
theorem minted_nodup (k : Nat) (ops : List Op) (hr : ReservedDiscipline ops) (hg : GroupIndicesGrow ops) :
    (minted k ops).Nodup := by
  induction ops generalizing k with
  | nil => exact List.nodup_nil
  | cons op ops ih =>
    match op with
    | .ordinary i c _ =>
      obtain ⟨h1, h2⟩ := List.pairwise_cons.1 hg
      refine List.nodup_cons.2 ⟨fun hm => ?_, ih _ hr h2⟩
      rcases mem_minted _ _ _ hm with h | ⟨i', c', j, he, hj, hmem⟩
      · have := hr.2 _ h
        simp [Ticket.index, reservedIndex] at this
        omega
      · simp only [Ticket.periodic.injEq] at he
        have := h1 _ hmem he.2
        simp only at this
        omega
    | .handleReserved none _ => exact ih _ hr hg
    | .workerReserved none _ => exact ih _ hr hg
    | .recv => exact ih _ hr hg
    | .expire .. => exact ih _ hr hg
    | .handleReserved (some t) _ =>
      obtain ⟨hn, hi⟩ := hr
      obtain ⟨h1, h2⟩ := List.nodup_cons.1 hn
      refine List.nodup_cons.2 ⟨fun hm => ?_, ih _ ⟨h2, fun t ht => hi t (List.mem_cons_of_mem _ ht)⟩ hg⟩
      rcases mem_minted _ _ _ hm with h | ⟨i', c', j, he, hj, hmem⟩
      · exact h1 h
      · have := hi t (List.mem_cons_self ..)
        rw [he] at this
        simp [Ticket.index, reservedIndex] at this
        omega
    | .workerReserved (some t) _ =>
      obtain ⟨hn, hi⟩ := hr
      obtain ⟨h1, h2⟩ := List.nodup_cons.1 hn
      refine List.nodup_cons.2 ⟨fun hm => ?_, ih _ ⟨h2, fun t ht => hi t (List.mem_cons_of_mem _ ht)⟩ hg⟩
      rcases mem_minted _ _ _ hm with h | ⟨i', c', j, he, hj, hmem⟩
      · exact h1 h
      · have := hi t (List.mem_cons_self ..)
        rw [he] at this
        simp [Ticket.index, reservedIndex] at this
        omega

/-- The minted ticket of one operation, if any. -/
def mint1 (k : Nat) : Op → Option Ticket
  | .ordinary idx cid _ => some (.periodic (idx + reservedIndex + k) cid)
  | .handleReserved t _ => t
  | .workerReserved t _ => t
  | _ => none

theorem minted_snoc (k : Nat) (ops : List Op) (op : Op) :
    minted k (ops ++ [op]) = minted k ops ++ (mint1 (k + (ordinaries ops).length) op).toList := by
  induction ops generalizing k with
  | nil => match op with
    | .ordinary .. => simp [minted, mint1, ordinaries]
    | .handleReserved none _ => simp [minted, mint1]
    | .handleReserved (some t) _ => simp [minted, mint1]
    | .workerReserved none _ => simp [minted, mint1]
    | .workerReserved (some t) _ => simp [minted, mint1]
    | .recv => simp [minted, mint1]
    | .expire .. => simp [minted, mint1]
  | cons o ops ih => match o with
    | .ordinary .. =>
      simp only [List.cons_append, minted, ordinaries, List.length_cons, ih]
      rw [show k + 1 + (ordinaries ops).length = k + ((ordinaries ops).length + 1) by omega]
    | .handleReserved none _ => simp [minted, ih, ordinaries]
    | .handleReserved (some t) _ => simp [minted, ih, ordinaries]
    | .workerReserved none _ => simp [minted, ih, ordinaries]
    | .workerReserved (some t) _ => simp [minted, ih, ordinaries]
    | .recv => simp [minted, ih, ordinaries]
    | .expire .. => simp [minted, ih, ordinaries]

/-- Tickets waiting in the channel. -/
def rxTickets (w : Worker) : List Ticket := w.rx.filterMap Prod.fst

/-- Automatically minted one-shot tickets carry an index that the worker has already passed. -/
def Auto (w : Worker) (t : Ticket) : Prop := ∃ i, t = .oneshot i 0 ∧ reservedIndex < i ∧ i ≤ w.rollingWorker + reservedIndex

structure Inv (ops : List Op) (w : Worker) (tr : List Event) : Prop where
  rolling : w.crashed = false → w.ended = false → w.rollingHandle = (ordinaries ops).length
  ok : w.crashed = false
  noReplace : ∀ t task x, Event.inserted t task x ∈ tr → x = none
  noCrash : ∀ t, Event.crash t ∉ tr
  rxNodup : (rxTickets w).Nodup
  rxMinted : ∀ t ∈ rxTickets w, t ∈ minted 0 ops ∧ t ∉ w.entries.keys
  keysNodup : w.entries.NodupKeys
  keysMinted : ∀ t ∈ w.entries.keys, t ∈ minted 0 ops ∨ Auto w t
  timers : w.ended = false → List.Perm w.expirations w.entries.keys
  waits : List.Perm (waiting tr.reverse) w.entries

theorem inv_init : Inv [] new [] := by
  refine ⟨fun _ _ => rfl, rfl, by simp, by simp, by simp [rxTickets, new], by simp [rxTickets, new],
    AMap.nodupKeys_nil, by simp [new, AMap.keys], fun _ => ?_, ?_⟩
  · simp [new, AMap.keys]
  · simp [new, waiting]

theorem erase_eq_of_not_mem {m : AMap Ticket Nat} {t : Ticket} (h : t ∉ m.keys) : m.erase t = m := by
  unfold AMap.erase
  apply List.filter_eq_self.2
  intro e he
  simp only [decide_eq_true_eq]
  rintro rfl
  exact h (List.mem_map_of_mem (f := Prod.fst) he)

theorem keys_erase (m : AMap Ticket Nat) (h : m.NodupKeys) (t : Ticket) : (m.erase t).keys = m.keys.erase t := by
  rw [h.erase_eq_filter]
  unfold AMap.erase AMap.keys
  rw [List.filter_map]
  congr 1
  apply List.filter_congr
  intro e _
  simp [bne]
  rfl

/-- Inserting under a fresh ticket. -/
theorem inv_insert {ops : List Op} {w : Worker} {tr : List Event} (key : Ticket) (task : Nat)
    (w' : Worker)
    (hent : w'.entries = w.entries.insert key task) (hex : w'.expirations = w.expirations ++ [key])
    (hrw : w'.rollingWorker = w.rollingWorker + 1) (hrh : w'.rollingHandle = w.rollingHandle)
    (hcr : w'.crashed = w.crashed)
    (hI : Inv ops w tr) (ops' : List Op) (hend : w.ended = false)
    (hord : (ordinaries ops').length = (ordinaries ops).length)
    (hmint : ∀ t ∈ minted 0 ops, t ∈ minted 0 ops')
    (hfresh : key ∉ w.entries.keys)
    (hkey : key ∈ minted 0 ops' ∨ Auto w' key)
    (hrxn : (rxTickets w').Nodup)
    (hrx : ∀ t ∈ rxTickets w', t ∈ minted 0 ops' ∧ t ∉ w.entries.keys ∧ t ≠ key) :
    Inv ops' w' (tr ++ [Event.inserted key task (w.entries.get? key)]) := by
  have hins : w'.entries = (key, task) :: w.entries := by
    rw [hent]; simp only [AMap.insert, erase_eq_of_not_mem hfresh]
  have hkeys : w'.entries.keys = key :: w.entries.keys := by rw [hins]; rfl
  have hg : w.entries.get? key = none := (AMap.get?_eq_none_iff _ _).2 hfresh
  refine ⟨?_, ?_, ?_, ?_, hrxn, ?_, ?_, ?_, ?_, ?_⟩
  · intro h1 h2; rw [hrh, hord]; exact hI.rolling (hcr ▸ h1) hend
  · rw [hcr]; exact hI.ok
  · intro t task' x hm
    rcases List.mem_append.1 hm with hm | hm
    · exact hI.noReplace t task' x hm
    · simp only [List.mem_singleton, Event.inserted.injEq] at hm
      rw [hm.2.2, hg]
  · intro t hm
    rcases List.mem_append.1 hm with hm | hm
    · exact hI.noCrash t hm
    · simp at hm
  · intro t ht
    obtain ⟨h1, h2, h3⟩ := hrx t ht
    refine ⟨h1, ?_⟩
    rw [hkeys, List.mem_cons]; tauto
  · unfold AMap.NodupKeys
    rw [hkeys]
    exact List.nodup_cons.2 ⟨hfresh, hI.keysNodup⟩
  · intro t ht
    rw [hkeys] at ht
    rcases List.mem_cons.1 ht with rfl | ht
    · exact hkey
    · rcases hI.keysMinted t ht with h | ⟨i, h1, h2, h3⟩
      · exact Or.inl (hmint t h)
      · exact Or.inr ⟨i, h1, h2, by omega⟩
  · intro _
    rw [hex, hkeys]
    exact (List.perm_append_singleton _ _).trans ((hI.timers hend).cons _)
  · rw [List.reverse_append]
    simp only [List.reverse_cons, List.reverse_nil, List.nil_append, List.singleton_append, waiting]
    rw [hins]
    exact hI.waits.cons _

theorem mint_not_mem {ops : List Op} {op : Op} {t : Ticket}
    (hn : (minted 0 (ops ++ [op])).Nodup) (hm : mint1 (ordinaries ops).length op = some t) :
    t ∉ minted 0 ops ∧ t ∈ minted 0 (ops ++ [op]) := by
  rw [minted_snoc, Nat.zero_add, hm] at hn ⊢
  simp only [Option.toList_some, List.nodup_append, List.mem_singleton] at hn
  refine ⟨fun h => ?_, by simp⟩
  exact hn.2.2 t h t rfl rfl

/-- An auto ticket is never a minted one if minted one-shot tickets are reserved. -/
theorem auto_not_minted {ops : List Op} (hr : ReservedDiscipline ops) {t : Ticket} {i c : Nat}
    (h : t = .oneshot i c) (hi : reservedIndex < i) : t ∉ minted 0 ops := by
  intro hm
  rcases mem_minted _ _ _ hm with h1 | ⟨i', c', j, he, -, -⟩
  · have := hr.2 t h1
    rw [h] at this
    simp [Ticket.index, reservedIndex] at this hi
    omega
  · rw [h] at he; cases he

theorem inv_step (ops : List Op) (op : Op) (w : Worker) (tr : List Event) (hI : Inv ops w tr)
    (hr : ReservedDiscipline (ops ++ [op])) (hg : GroupIndicesGrow (ops ++ [op])) :
    Inv (ops ++ [op]) (step w op).1 (tr ++ [(step w op).2]) := by
  have hnd := minted_nodup 0 _ hr hg
  have hsub : ∀ t ∈ minted 0 ops, t ∈ minted 0 (ops ++ [op]) := by
    intro t ht; rw [minted_snoc]; exact List.mem_append_left _ ht
  -- an event that neither inserts nor removes
  have quiet : ∀ w' : Worker, ∀ e : Event, (∀ t task x, e ≠ .inserted t task x) → (∀ t, e ≠ .crash t) →
      (∀ l, waiting (e :: l) = waiting l) → w'.entries = w.entries → w'.crashed = w.crashed →
      (w'.ended = false → w.ended = false ∧ w'.rollingHandle = (ordinaries (ops ++ [op])).length ∧
        List.Perm w'.expirations w.expirations) →
      w'.rollingWorker = w.rollingWorker →
      (rxTickets w').Nodup → (∀ t ∈ rxTickets w', t ∈ minted 0 (ops ++ [op]) ∧ t ∉ w.entries.keys) →
      Inv (ops ++ [op]) w' (tr ++ [e]) := by
    intro w' e he1 he2 he3 hent hcr hend hrw hrn hrx
    refine ⟨fun _ h => (hend h).2.1, by rw [hcr]; exact hI.ok, ?_, ?_, hrn, ?_, by rw [hent]; exact hI.keysNodup, ?_, ?_, ?_⟩
    · intro t task x hm
      rcases List.mem_append.1 hm with hm | hm
      · exact hI.noReplace t task x hm
      · exact absurd (List.mem_singleton.1 hm).symm (he1 t task x)
    · intro t hm
      rcases List.mem_append.1 hm with hm | hm
      · exact hI.noCrash t hm
      · exact absurd (List.mem_singleton.1 hm).symm (he2 t)
    · rw [hent]; exact hrx
    · rw [hent]
      intro t ht
      rcases hI.keysMinted t ht with h | ⟨i, h1, h2, h3⟩
      · exact Or.inl (hsub t h)
      · exact Or.inr ⟨i, h1, h2, by rw [hrw]; exact h3⟩
    · intro h
      rw [hent]; exact (hend h).2.2.trans (hI.timers (hend h).1)
    · rw [List.reverse_append]
      simp only [List.reverse_cons, List.reverse_nil, List.nil_append, List.singleton_append]
      rw [he3, hent]
      exact hI.waits
  have rxold : ∀ t ∈ rxTickets w, t ∈ minted 0 (ops ++ [op]) ∧ t ∉ w.entries.keys :=
    fun t ht => ⟨hsub t (hI.rxMinted t ht).1, (hI.rxMinted t ht).2⟩
  unfold step
  by_cases hstop : (w.crashed || w.ended) = true
  · simp only [hstop, if_true]
    refine quiet w .nothing (by simp) (by simp) (fun _ => rfl) rfl rfl ?_ rfl hI.rxNodup rxold
    intro h; simp [hI.ok, h] at hstop
  simp only [Bool.not_eq_true, Bool.or_eq_false_iff] at hstop
  obtain ⟨hc, hend⟩ := hstop
  rw [if_neg (by simp [hc, hend])]
  have hroll := hI.rolling hc hend
  have hordq : (∀ i c t, op ≠ .ordinary i c t) → (ordinaries (ops ++ [op])).length = (ordinaries ops).length := by
    intro h
    rw [ordinaries_append]
    cases op with
    | ordinary i c t => exact absurd rfl (h i c t)
    | _ => simp [ordinaries]
  match op with
  | .ordinary idx cid task =>
    have hm := mint_not_mem hnd (t := .periodic (idx + reservedIndex + w.rollingHandle) cid) (by simp [mint1, hroll])
    have hnk : Ticket.periodic (idx + reservedIndex + w.rollingHandle) cid ∉ w.entries.keys := by
      intro hk
      rcases hI.keysMinted _ hk with h | ⟨i, h, -, -⟩
      · exact hm.1 h
      · cases h
    refine quiet _ _ (by simp) (by simp) (fun _ => rfl) rfl rfl ?_ rfl ?_ ?_
    · intro _
      refine ⟨hend, ?_, List.Perm.refl _⟩
      show w.rollingHandle + 1 = _
      rw [hroll, ordinaries_append]; simp [ordinaries]
    · show ((w.rx ++ [_]).filterMap Prod.fst).Nodup
      rw [List.filterMap_append]
      simp only [List.filterMap_cons, List.filterMap_nil]
      refine List.nodup_append.2 ⟨hI.rxNodup, by simp, ?_⟩
      intro a ha b hb he
      simp only [List.mem_singleton] at hb
      subst he; subst hb
      exact hm.1 (hI.rxMinted _ ha).1
    · intro t ht
      have ht' : t ∈ (w.rx ++ [(some (Ticket.periodic (idx + reservedIndex + w.rollingHandle) cid), task)]).filterMap Prod.fst := ht
      rw [List.filterMap_append] at ht'
      rcases List.mem_append.1 ht' with h | h
      · exact rxold t h
      · simp only [List.filterMap_cons, List.filterMap_nil, List.mem_singleton] at h
        subst h; exact ⟨hm.2, hnk⟩
  | .handleReserved none task =>
    have hrxe : ((w.rx ++ [((none : Option Ticket), task)]).filterMap Prod.fst) = rxTickets w := by
      rw [List.filterMap_append]; simp [rxTickets]
    refine quiet _ _ (by simp) (by simp) (fun _ => rfl) rfl rfl ?_ rfl ?_ ?_
    · intro _; exact ⟨hend, by rw [hordq (by simp)]; exact hroll, List.Perm.refl _⟩
    · show ((w.rx ++ [((none : Option Ticket), task)]).filterMap Prod.fst).Nodup
      rw [hrxe]; exact hI.rxNodup
    · intro t ht
      have ht' : t ∈ ((w.rx ++ [((none : Option Ticket), task)]).filterMap Prod.fst) := ht
      rw [hrxe] at ht'
      exact rxold t ht'
  | .handleReserved (some key) task =>
    have hm := mint_not_mem hnd (t := key) (by simp [mint1])
    have hnk : key ∉ w.entries.keys := by
      intro hk
      rcases hI.keysMinted _ hk with h | ⟨i, h, h2, -⟩
      · exact hm.1 h
      · exact auto_not_minted hr h h2 hm.2
    refine quiet _ _ (by simp) (by simp) (fun _ => rfl) rfl rfl ?_ rfl ?_ ?_
    · intro _; exact ⟨hend, by rw [hordq (by simp)]; exact hroll, List.Perm.refl _⟩
    · show ((w.rx ++ [(some key, task)]).filterMap Prod.fst).Nodup
      rw [List.filterMap_append]
      simp only [List.filterMap_cons, List.filterMap_nil]
      refine List.nodup_append.2 ⟨hI.rxNodup, by simp, ?_⟩
      intro a ha b hb he
      simp only [List.mem_singleton] at hb
      subst he; subst hb
      exact hm.1 (hI.rxMinted _ ha).1
    · intro t ht
      have ht' : t ∈ (w.rx ++ [(some key, task)]).filterMap Prod.fst := ht
      rw [List.filterMap_append] at ht'
      rcases List.mem_append.1 ht' with h | h
      · exact rxold t h
      · simp only [List.filterMap_cons, List.filterMap_nil, List.mem_singleton] at h
        subst h; exact ⟨hm.2, hnk⟩
  | .workerReserved (some key) task =>
    have hm := mint_not_mem hnd (t := key) (by simp [mint1])
    have hnk : key ∉ w.entries.keys := by
      intro hk
      rcases hI.keysMinted _ hk with h | ⟨i, h, h2, -⟩
      · exact hm.1 h
      · exact auto_not_minted hr h h2 hm.2
    simp only [insertReserved, Option.getD_some]
    refine inv_insert (w := w) key task _ (by rfl) (by rfl) (by rfl) (by rfl) (by rfl) hI _ hend (hordq (by simp)) hsub hnk (Or.inl hm.2) hI.rxNodup ?_
    intro t ht
    refine ⟨(rxold t ht).1, (rxold t ht).2, ?_⟩
    rintro rfl
    exact hm.1 (hI.rxMinted _ ht).1
  | .workerReserved none task =>
    have hnk : Ticket.oneshot (w.rollingWorker + reservedIndex + 1) 0 ∉ w.entries.keys := by
      intro hk
      rcases hI.keysMinted _ hk with h | ⟨i, h, h2, h3⟩
      · exact auto_not_minted hr rfl (by omega) (hsub _ h)
      · simp only [Ticket.oneshot.injEq, and_true] at h; omega
    simp only [insertReserved, Option.getD_none]
    refine inv_insert (w := w) _ task _ (by rfl) (by rfl) (by rfl) (by rfl) (by rfl) hI _ hend (hordq (by simp)) hsub hnk
      (Or.inr ⟨_, rfl, by omega, ?_⟩) hI.rxNodup ?_
    · show w.rollingWorker + reservedIndex + 1 ≤ w.rollingWorker + 1 + reservedIndex; omega
    · intro t ht
      refine ⟨(rxold t ht).1, (rxold t ht).2, ?_⟩
      rintro rfl
      exact auto_not_minted hr rfl (by omega) (rxold _ ht).1
  | .recv =>
    simp only
    cases hrx : w.rx with
    | nil =>
      simp only
      refine quiet w .nothing (by simp) (by simp) (fun _ => rfl) rfl rfl ?_ rfl hI.rxNodup rxold
      intro _; exact ⟨hend, by rw [hordq (by simp)]; exact hroll, List.Perm.refl _⟩
    | cons hd rest =>
      obtain ⟨k, task⟩ := hd
      simp only
      cases k with
      | none =>
        have hrxe : rxTickets w = rest.filterMap Prod.fst := by simp [rxTickets, hrx]
        have hnk : Ticket.oneshot (w.rollingWorker + reservedIndex + 1) 0 ∉ w.entries.keys := by
          intro hk
          rcases hI.keysMinted _ hk with h | ⟨i, h, h2, h3⟩
          · exact auto_not_minted hr rfl (by omega) (hsub _ h)
          · simp only [Ticket.oneshot.injEq, and_true] at h; omega
        simp only [insertReserved, Option.getD_none]
        refine inv_insert (w := w) _ task _ (by rfl) (by rfl) (by rfl) (by rfl) (by rfl) hI _ hend (hordq (by simp)) hsub hnk
          (Or.inr ⟨_, rfl, by omega, ?_⟩) ?_ ?_
        · show w.rollingWorker + reservedIndex + 1 ≤ w.rollingWorker + 1 + reservedIndex; omega
        · show (rest.filterMap Prod.fst).Nodup
          rw [← hrxe]; exact hI.rxNodup
        · intro t ht
          have ht' : t ∈ rest.filterMap Prod.fst := ht
          rw [← hrxe] at ht'
          refine ⟨(rxold t ht').1, (rxold t ht').2, ?_⟩
          rintro rfl
          exact auto_not_minted hr rfl (by omega) (rxold _ ht').1
      | some key =>
        have hrxe : rxTickets w = key :: rest.filterMap Prod.fst := by simp [rxTickets, hrx]
        have hn := hI.rxNodup
        rw [hrxe, List.nodup_cons] at hn
        have hk := rxold key (by rw [hrxe]; exact List.mem_cons_self ..)
        simp only [insertReserved, Option.getD_some]
        refine inv_insert (w := w) key task _ (by rfl) (by rfl) (by rfl) (by rfl) (by rfl) hI _ hend (hordq (by simp)) hsub hk.2 (Or.inl hk.1) hn.2 ?_
        intro t ht
        have ht' : t ∈ rest.filterMap Prod.fst := ht
        have := rxold t (by rw [hrxe]; exact List.mem_cons_of_mem _ ht')
        refine ⟨this.1, this.2, ?_⟩
        rintro rfl
        exact hn.1 ht'
  | .expire t res =>
    simp only
    by_cases hmem : t ∈ w.expirations
    · simp only [hmem, if_true]
      have htk : t ∈ w.entries.keys := (hI.timers hend).mem_iff.1 hmem
      have hcont : w.entries.contains t = true := by
        unfold AMap.contains; rw [← AMap.mem_keys_iff]; exact htk
      have hperm : List.Perm (w.expirations.erase t) (w.entries.erase t).keys := by
        rw [keys_erase _ hI.keysNodup]; exact (hI.timers hend).erase t
      -- removal
      have removal : ∀ (w' : Worker) (e : Event), (∀ t task x, e ≠ .inserted t task x) → (∀ t, e ≠ .crash t) →
          (∀ l, waiting (e :: l) = (waiting l).filter (fun x => decide (x.1 ≠ t))) →
          w'.entries = w.entries.erase t → w'.crashed = w.crashed →
          w'.expirations = w.expirations.erase t → w'.rollingHandle = w.rollingHandle →
          w'.rollingWorker = w.rollingWorker → w'.rx = w.rx → Inv (ops ++ [.expire t res]) w' (tr ++ [e]) := by
        intro w' e he1 he2 he3 hent hcr hex hrh hrw hrxq
        have hsubk : ∀ x ∈ (w.entries.erase t).keys, x ∈ w.entries.keys := by
          intro x hx; rw [keys_erase _ hI.keysNodup] at hx; exact List.mem_of_mem_erase hx
        have hrxt : rxTickets w' = rxTickets w := by simp [rxTickets, hrxq]
        refine ⟨?_, by rw [hcr]; exact hI.ok, ?_, ?_, by rw [hrxt]; exact hI.rxNodup, ?_,
          by rw [hent]; exact AMap.nodupKeys_erase hI.keysNodup t, ?_, ?_, ?_⟩
        · intro _ _; rw [hrh, hordq (by simp)]; exact hroll
        · intro t task x hm
          rcases List.mem_append.1 hm with hm | hm
          · exact hI.noReplace t task x hm
          · exact absurd (List.mem_singleton.1 hm).symm (he1 t task x)
        · intro t hm
          rcases List.mem_append.1 hm with hm | hm
          · exact hI.noCrash t hm
          · exact absurd (List.mem_singleton.1 hm).symm (he2 t)
        · rw [hrxt, hent]
          intro x hx
          exact ⟨(rxold x hx).1, fun h => (rxold x hx).2 (hsubk x h)⟩
        · rw [hent]
          intro x hx
          rcases hI.keysMinted x (hsubk x hx) with h | ⟨i, h1, h2, h3⟩
          · exact Or.inl (hsub x h)
          · exact Or.inr ⟨i, h1, h2, by rw [hrw]; exact h3⟩
        · intro _; rw [hex, hent]; exact hperm
        · rw [List.reverse_append]
          simp only [List.reverse_cons, List.reverse_nil, List.nil_append, List.singleton_append]
          rw [he3, hent]
          exact hI.waits.filter _
      cases t with
      | oneshot i c =>
        simp only [fire, fireOneshot, hcont, if_true]
        exact removal _ _ (by simp) (by simp) (fun _ => rfl) rfl rfl rfl rfl rfl rfl
      | periodic i c =>
        simp only [fire, firePeriodic, hcont, if_true]
        by_cases hres : res = .complete
        · subst hres
          simp only [if_true]
          exact removal _ _ (by simp) (by simp) (fun _ => rfl) rfl rfl rfl rfl rfl rfl
        · simp only [hres, if_false]
          have hw : ∀ l, waiting (Event.fired (.periodic i c)
              ((w.entries.get? (.periodic i c)).getD 0) res :: l) = waiting l := by
            intro l; cases res <;> simp_all [waiting]
          by_cases hes : res = .endSession
          · subst hes
            simp only [if_true]
            refine quiet _ _ (by simp) (by simp) hw rfl rfl ?_ rfl hI.rxNodup rxold
            intro h; simp at h
          · simp only [hes, if_false]
            refine quiet _ _ (by simp) (by simp) hw rfl rfl ?_ rfl hI.rxNodup rxold
            intro _
            refine ⟨hend, by rw [hordq (by simp)]; exact hroll, ?_⟩
            exact (List.perm_append_singleton _ _).trans (List.perm_cons_erase hmem).symm
    · simp only [hmem, if_false]
      refine quiet w .nothing (by simp) (by simp) (fun _ => rfl) rfl rfl ?_ rfl hI.rxNodup rxold
      intro _; exact ⟨hend, by rw [hordq (by simp)]; exact hroll, List.Perm.refl _⟩

theorem inv_run (ops : List Op) (hr : ReservedDiscipline ops) (hg : GroupIndicesGrow ops) :
    Inv ops (run new ops).1 (run new ops).2 := by
  induction ops using List.reverseRecOn with
  | nil => exact inv_init
  | append_singleton ops op ih =>
    have hr' : ReservedDiscipline ops := by
      obtain ⟨h1, h2⟩ := hr
      rw [explicitTickets_append] at h1 h2
      exact ⟨(List.nodup_append.1 h1).1, fun t ht => h2 t (List.mem_append_left _ ht)⟩
    have hg' : GroupIndicesGrow ops := by
      unfold GroupIndicesGrow at hg ⊢
      rw [ordinaries_append] at hg
      exact (List.pairwise_append.1 hg).1
    rw [run_append]
    exact inv_step ops op _ _ (ih hr' hg') hr hg

end Verif.Queue

import Verif.Layered.Model
import Verif.Packet.Lemmas
namespace Verif.Layered
open Verif Verif.Packet

variable {R : Ratchet}

/-- What a payload looks like after the layers below `k`, given packet and transient ids per layer. -/
def body (R : Ratchet) (pid tid : Nat → Nat) (header payload : Bytes) : Nat → Bytes
  | 0 => payload
  | k + 1 => (R.layer k).A.enc ((R.layer k).nonceOf (tid k)) header (body R pid tid header payload k ++ toBE 8 (pid k)) ++
      toBE 8 (tid k)

theorem protectLoop_append (hl : Nat) (a b : List Nat) (s s' : SendState) (p p' : Bytes)
    (h : protectLoop R hl a s p = (s', p', .ok ())) : protectLoop R hl (a ++ b) s p = protectLoop R hl b s' p' := by
  induction a generalizing s p with
  | nil => simp only [protectLoop, Prod.mk.injEq, and_true] at h; obtain ⟨rfl, rfl⟩ := h; rfl
  | cons n ns ih =>
    simp only [protectLoop, List.cons_append] at h ⊢
    split at h
    · rename_i hc
      rw [if_pos hc]
      exact ih _ _ h
    · simp at h

/-- The sender after one packet on a layer. -/
def advance (s : Sender) : Sender := { ara := (Replay.getNextPid s.ara).1, transient := (s.transient + 1) % 2 ^ 64 }

theorem protectLoop_range (k : Nat) (hk : k ≤ R.count) (s : SendState) (header payload : Bytes) :
    protectLoop R header.length (List.range k) s (header ++ payload) =
      ((fun n => if n < k then advance (s n) else s n),
        header ++ body R (fun n => (s n).ara.counterOut) (fun n => (s n).transient) header payload k, .ok ()) := by
  induction k with
  | zero => simp [protectLoop, body]
  | succ k ih =>
    rw [List.range_succ, protectLoop_append _ _ _ _ _ _ _ (ih (by omega))]
    simp only [protectLoop]
    rw [if_pos (by omega)]
    simp only [protect, Nat.lt_irrefl, if_false, List.take_left', List.drop_left', body, Replay.getNextPid, Prod.mk.injEq,
      and_true, List.append_assoc]
    funext n
    by_cases hn : n = k
    · subst hn; simp [advance, Replay.getNextPid]
    · rw [Function.update_of_ne hn]
      by_cases h2 : n < k
      · rw [if_pos h2, if_pos (by omega)]
      · rw [if_neg h2, if_neg (by omega)]

/-- One layer opens what it closed. -/
theorem validate_one {A : Aead} (hA : A.Correct) (nonceOf : Nat → A.Nonce) (r : Receiver) (h b : Bytes) (pid tid : Nat)
    (hp : pid < 2 ^ 64) (ht : tid < 2 ^ 64) (hacc : (Replay.onPidReceived r.ara pid).2 = true) :
    validate A nonceOf r h (A.enc (nonceOf tid) h (b ++ toBE 8 pid) ++ toBE 8 tid) =
      ({ ara := (Replay.onPidReceived r.ara pid).1 }, .ok (pid, b)) := by
  have hp' : pid < 256 ^ 8 := by
    have : (256 : Nat) ^ 8 = 2 ^ 64 := by norm_num
    omega
  unfold validate
  rw [splitTransient_append _ _ ht]
  simp only
  rw [hA]
  simp only
  have hl : (b ++ toBE 8 pid).length = b.length + 8 := by simp
  rw [hl, if_neg (by omega), Nat.add_sub_cancel, List.drop_left' rfl, List.take_left' rfl, fromBE_toBE hp', hacc, if_pos rfl]

theorem validateLoop_range (hA : ∀ n, (R.layer n).A.Correct) (k : Nat) (hk : k ≤ R.count) (s : RecvState)
    (header payload : Bytes) (pid tid : Nat → Nat) (hp : ∀ n < k, pid n < 2 ^ 64) (ht : ∀ n < k, tid n < 2 ^ 64)
    (hacc : ∀ n < k, (Replay.onPidReceived (s n).ara (pid n)).2 = true) :
    validateLoop R header (List.range k).reverse s (body R pid tid header payload k) =
      ((fun n => if n < k then { ara := (Replay.onPidReceived (s n).ara (pid n)).1 } else s n), payload, .ok ()) := by
  induction k generalizing s with
  | zero => simp [validateLoop, body]
  | succ k ih =>
    rw [List.range_succ, List.reverse_append, List.reverse_singleton, List.singleton_append]
    simp only [validateLoop, body]
    rw [if_pos (by omega), validate_one (hA k) _ _ _ _ _ _ (hp k (by omega)) (ht k (by omega)) (hacc k (by omega))]
    simp only
    rw [ih (by omega) _ (fun n hn => hp n (by omega)) (fun n hn => ht n (by omega))]
    · simp only [Prod.mk.injEq, and_true]
      funext n
      by_cases hn : n = k
      · subst hn; simp
      · rw [Function.update_of_ne hn]
        by_cases h2 : n < k
        · rw [if_pos h2, if_pos (by omega)]
        · rw [if_neg h2, if_neg (by omega)]
    · intro n hn
      rw [Function.update_of_ne (by omega)]
      exact hacc n (by omega)

theorem verifyLevel_ok (hc : R.count ≤ 256) (level : Option Nat) (h : level.getD 0 < R.count) :
    verifyLevel R level = .ok (level.getD 0) := by
  unfold verifyLevel
  rw [if_neg (by omega), if_neg (by omega)]

/-- Number of messages before the `i`-th that use layer `n`. -/
def uses (msgs : List Msg) (n i : Nat) : Nat := ((msgs.take i).filter (fun m => decide (n ≤ m.level.getD 0))).length

theorem uses_le (msgs : List Msg) (n i : Nat) : uses msgs n i ≤ i := by
  unfold uses
  exact (List.length_filter_le _ _).trans (by simp)

theorem uses_succ (msgs : List Msg) (n i : Nat) (hi : i < msgs.length) :
    uses msgs n (i + 1) = uses msgs n i + if n ≤ msgs[i].level.getD 0 then 1 else 0 := by
  unfold uses
  rw [List.take_succ_eq_append_getElem hi, List.filter_append]
  by_cases h : n ≤ msgs[i].level.getD 0 <;> simp [h]

theorem uses_mono (msgs : List Msg) (n : Nat) {i j : Nat} (hij : i ≤ j) (hj : j ≤ msgs.length) :
    uses msgs n i ≤ uses msgs n j ∧ uses msgs n j ≤ uses msgs n i + (j - i) := by
  induction j, hij using Nat.le_induction with
  | base => simp
  | succ j hij ih =>
    have := ih (by omega)
    rw [uses_succ msgs n j (by omega)]
    split <;> omega

theorem sendAll_get (hc : R.count ≤ 256) (ms : List Msg) (s : SendState)
    (hl : ∀ m ∈ ms, m.level.getD 0 < R.count ∧ m.headerLen ≤ m.packet.length)
    (hcnt : ∀ n, (s n).ara.counterOut + ms.length ≤ 2 ^ 64) (ht : ∀ n, (s n).transient < 2 ^ 64)
    (i : Nat) (hi : i < ms.length) :
    (sendAll R s ms).getD i [] = ms[i].packet.take ms[i].headerLen ++
      body R (fun n => (s n).ara.counterOut + uses ms n i) (fun n => ((s n).transient + uses ms n i) % 2 ^ 64)
        (ms[i].packet.take ms[i].headerLen) (ms[i].packet.drop ms[i].headerLen) (ms[i].level.getD 0 + 1) := by
  induction ms generalizing s i with
  | nil => simp at hi
  | cons m ms ih =>
    obtain ⟨hlev, hhl⟩ := hl m (List.mem_cons_self ..)
    have key : protectMessage R s m.level m.headerLen m.packet =
        ((fun n => if n < m.level.getD 0 + 1 then advance (s n) else s n),
          m.packet.take m.headerLen ++ body R (fun n => (s n).ara.counterOut) (fun n => (s n).transient)
            (m.packet.take m.headerLen) (m.packet.drop m.headerLen) (m.level.getD 0 + 1), .ok ()) := by
      unfold protectMessage
      rw [verifyLevel_ok hc _ hlev]
      have := protectLoop_range (R := R) (m.level.getD 0 + 1) (by omega) s (m.packet.take m.headerLen) (m.packet.drop m.headerLen)
      rw [List.take_append_drop, List.length_take, Nat.min_eq_left hhl] at this
      exact this
    cases i with
    | zero =>
      simp only [sendAll, key, List.getD_cons_zero, List.getElem_cons_zero]
      congr 2
      funext n
      have := ht n
      simp only [uses, List.take_zero, List.filter_nil, List.length_nil, Nat.add_zero]
      omega
    | succ i =>
      simp only [sendAll, key, List.getD_cons_succ, List.getElem_cons_succ]
      have hadv : ∀ n, (advance (s n)).ara.counterOut = ((s n).ara.counterOut + 1) % 2 ^ 64 := fun n => rfl
      have hi' : i < ms.length := by simpa using hi
      have hmod : ∀ n, (advance (s n)).ara.counterOut = (s n).ara.counterOut + 1 := by
        intro n
        rw [hadv]
        have := hcnt n
        simp only [List.length_cons] at this
        exact Nat.mod_eq_of_lt (by omega)
      rw [ih (fun n => if n < m.level.getD 0 + 1 then advance (s n) else s n)
        (fun m' hm' => hl m' (List.mem_cons_of_mem _ hm')) ?_ ?_ i hi']
      · have hu : ∀ n, uses (m :: ms) n (i + 1) = uses ms n i + if n < m.level.getD 0 + 1 then 1 else 0 := by
          intro n
          unfold uses
          rw [List.take_succ_cons, List.filter_cons]
          by_cases h : n ≤ m.level.getD 0
          · rw [if_pos (by simpa using h), if_pos (by omega)]; simp
          · rw [if_neg (by simpa using h), if_neg (by omega)]; simp
        congr 2
        · funext n
          rw [hu]
          split
          · rw [hmod]; omega
          · omega
        · funext n
          rw [hu]
          split
          · show ((((s n).transient + 1) % 2 ^ 64) + uses ms n i) % 2 ^ 64 = _
            omega
          · omega
      · intro n
        have := hcnt n
        simp only [List.length_cons] at this
        split
        · rw [hmod]; omega
        · omega
      · intro n
        split
        · exact Nat.mod_lt _ (by decide)
        · exact ht n

/-- Receiving, in any order inside the window. -/
theorem deliverAll_get (hA : ∀ n, (R.layer n).A.Correct) (hc : R.count ≤ 256) (msgs : List Msg)
    (hl : ∀ m ∈ msgs, m.level.getD 0 < R.count) (hlen : msgs.length < 2 ^ 64) (tid : Nat → Nat → Nat)
    (ht : ∀ n i, tid n i < 2 ^ 64)
    (order done : List Nat) (s : RecvState)
    (hin : ∀ i ∈ done ++ order, i < msgs.length)
    (hinv : ∀ n, Replay.Inv (s n).ara ((done.filter (fun i => decide (n ≤ (msgs.getD i default).level.getD 0))).map (uses msgs n)))
    (hnd : (done.reverse ++ order).Nodup)
    (hwin : (done.reverse ++ order).Pairwise (fun earlier later => earlier ≤ later + 1023)) :
    deliverAll R s (order.map fun i =>
      ((msgs.getD i default).level, (msgs.getD i default).packet.take (msgs.getD i default).headerLen,
        body R (fun n => uses msgs n i) (fun n => tid n i) ((msgs.getD i default).packet.take (msgs.getD i default).headerLen)
          ((msgs.getD i default).packet.drop (msgs.getD i default).headerLen) ((msgs.getD i default).level.getD 0 + 1))) =
      order.map fun i => .ok ((msgs.getD i default).packet.drop (msgs.getD i default).headerLen) := by
  induction order generalizing done s with
  | nil => rfl
  | cons i order ih =>
    have hH : Replay.historyLen = 1024 := by unfold Replay.historyLen; rfl
    have hi : i < msgs.length := hin i (by simp)
    have hm : msgs.getD i default = msgs[i] := by simp [List.getD_eq_getElem?_getD, hi]
    have hlev : (msgs.getD i default).level.getD 0 < R.count := by rw [hm]; exact hl _ (List.getElem_mem hi)
    -- strictly increasing ids on the layers a message uses
    have hstrict : ∀ n j, j < msgs.length → n ≤ (msgs.getD j default).level.getD 0 → ∀ j', j < j' → j' ≤ msgs.length →
        uses msgs n j < uses msgs n j' := by
      intro n j hj hn j' hjj hj'
      have hmj : msgs.getD j default = msgs[j] := by simp [List.getD_eq_getElem?_getD, hj]
      rw [hmj] at hn
      have h1 := uses_succ msgs n j hj
      rw [if_pos hn] at h1
      have := (uses_mono msgs n (i := j + 1) (j := j') hjj hj').1
      omega
    have hacc : ∀ n < (msgs.getD i default).level.getD 0 + 1, uses msgs n i ∉ (s n).ara.seen ∧
        (s n).ara.highWater - Replay.historyLen ≤ uses msgs n i := by
      intro n hn
      constructor
      · intro hs
        have h1 := ((hinv n).seenIff _).1 hs
        obtain ⟨j, hj, he⟩ := List.mem_map.1 h1.1
        obtain ⟨hjd, hjn⟩ := List.mem_filter.1 hj
        have hjn' : n ≤ (msgs.getD j default).level.getD 0 := by simpa using hjn
        have hjl : j < msgs.length := hin j (by simp [hjd])
        have hne : j ≠ i := by
          intro h; subst h
          exact (List.nodup_append.1 hnd).2.2 j (List.mem_reverse.2 hjd) j (List.mem_cons_self ..) rfl
        rcases Nat.lt_or_gt_of_ne hne with h | h
        · have := hstrict n j hjl hjn' i h (by omega); omega
        · have := hstrict n i hi (by omega) j h (by omega); omega
      · rcases (hinv n).hwAttained with h0 | ⟨q, hq, he⟩
        · omega
        · obtain ⟨j, hj, rfl⟩ := List.mem_map.1 hq
          obtain ⟨hjd, hjn⟩ := List.mem_filter.1 hj
          have hw := (List.pairwise_append.1 hwin).2.2 j (List.mem_reverse.2 hjd) i (List.mem_cons_self ..)
          have hs : Replay.satSucc (uses msgs n j) ≤ uses msgs n j + 1 := by unfold Replay.satSucc; omega
          have hjl : j < msgs.length := hin j (by simp [hjd])
          rcases Nat.le_total i j with h | h
          · have := (uses_mono msgs n h (by omega)).2; omega
          · have := (uses_mono msgs n h (by omega)).1; omega
    have hone := validateLoop_range hA ((msgs.getD i default).level.getD 0 + 1) (by omega) s
      ((msgs.getD i default).packet.take (msgs.getD i default).headerLen)
      ((msgs.getD i default).packet.drop (msgs.getD i default).headerLen) (fun n => uses msgs n i) (fun n => tid n i)
      (fun n _ => by have := uses_le msgs n i; omega) (fun n _ => ht n i)
      (fun n hn => (Replay.inv_accept (hinv n) _ (hacc n hn).2 (hacc n hn).1).2)
    have hv : ∀ hd b, validateMessage R s (msgs.getD i default).level hd b =
        validateLoop R hd (List.range ((msgs.getD i default).level.getD 0 + 1)).reverse s b := by
      intro hd b
      unfold validateMessage
      rw [verifyLevel_ok hc _ hlev]
    simp only [List.map_cons, deliverAll, hv, hone]
    congr 1
    have hl' : done.reverse ++ i :: order = (i :: done).reverse ++ order := by simp
    apply ih (i :: done)
    · intro j hj
      exact hin j (by simpa [or_left_comm, or_comm, or_assoc] using hj)
    · intro n
      rw [List.filter_cons]
      by_cases h : n < (msgs.getD i default).level.getD 0 + 1
      · rw [if_pos h, if_pos (by simpa using Nat.lt_succ_iff.1 h), List.map_cons]
        have := (Replay.inv_accept (hinv n) _ (hacc n h).2 (hacc n h).1).1
        generalize Replay.onPidReceived (s n).ara (uses msgs n i) = q at this ⊢
        exact this
      · rw [if_neg h, if_neg (by simp only [decide_eq_true_eq]; omega)]
        exact hinv n
    · rw [← hl']; exact hnd
    · rw [← hl']; exact hwin

theorem localEncLoop_append (a b : List Nat) (t t' : Nat → Nat) (d d' : Bytes)
    (h : localEncLoop R a t d = (t', .ok d')) : localEncLoop R (a ++ b) t d = localEncLoop R b t' d' := by
  induction a generalizing t d with
  | nil => simp only [localEncLoop, Prod.mk.injEq, Except.ok.injEq] at h; obtain ⟨rfl, rfl⟩ := h; rfl
  | cons n ns ih =>
    simp only [localEncLoop, List.cons_append] at h ⊢
    split at h
    · rename_i hc
      rw [if_pos hc]
      exact ih _ _ h
    · simp at h

theorem local_range (hA : ∀ n, (R.layer n).A.Correct) (k : Nat) (hk : k ≤ R.count) (t : Nat → Nat)
    (ht : ∀ n, t n < 2 ^ 64) (d : Bytes) :
    ∃ t' c, localEncLoop R (List.range k) t d = (t', .ok c) ∧ (∀ n, t' n < 2 ^ 64) ∧ (0 < k → c ≠ []) ∧
      (∀ n, k ≤ n → t' n = t n) ∧ localDecLoop R (List.range k).reverse c = .ok d := by
  induction k with
  | zero => exact ⟨t, d, rfl, ht, by simp, by simp, rfl⟩
  | succ k ih =>
    obtain ⟨t', c, h1, h2, -, h4, h5⟩ := ih (by omega)
    rw [List.range_succ, localEncLoop_append _ _ _ _ _ _ h1]
    simp only [localEncLoop]
    rw [if_pos (by omega)]
    refine ⟨_, _, rfl, ?_, ?_, ?_, ?_⟩
    · intro n
      by_cases hn : n = k
      · subst hn; rw [Function.update_self]; exact Nat.mod_lt _ (by decide)
      · rw [Function.update_of_ne hn]; exact h2 n
    · intro _ h
      have := congrArg List.length h
      simp at this
    · intro n hn
      rw [Function.update_of_ne (by omega)]
      exact h4 n (by omega)
    · rw [List.reverse_append, List.reverse_singleton, List.singleton_append]
      simp only [localDecLoop]
      rw [if_pos (by omega), splitTransient_append _ _ (h2 k)]
      simp only
      rw [hA]
      exact h5

end Verif.Layered

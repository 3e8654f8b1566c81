import Verif.Packet.Spec
import Verif.Replay.Lemmas
import Mathlib.Data.List.Nodup

namespace Verif.Packet
open Verif

attribute [local irreducible] Replay.historyLen Replay.u64Max

variable {A : Aead} {nonceOf : Nat → A.Nonce}

theorem subperm_map {α β : Type} {a b : List α} (h : List.Subperm a b) (f : α → β) :
    List.Subperm (a.map f) (b.map f) := by
  obtain ⟨l, hp, hs⟩ := h
  exact ⟨l.map f, hp.map f, hs.map f⟩

theorem subperm_filterMap {α β : Type} {a b : List α} (h : List.Subperm a b) (f : α → Option β) :
    List.Subperm (a.filterMap f) (b.filterMap f) := by
  obtain ⟨l, hp, hs⟩ := h
  exact ⟨l.filterMap f, hp.filterMap f, hs.filterMap f⟩

theorem run_append (s : State) (a b : List Op) :
    run A nonceOf s (a ++ b) = ((run A nonceOf (run A nonceOf s a).1 b).1,
      (run A nonceOf s a).2 ++ (run A nonceOf (run A nonceOf s a).1 b).2) := by
  induction a generalizing s with
  | nil => simp [run]
  | cons op a ih => simp [run, ih]

theorem sentMsgs_append {N : Type} (a b : List (Event N)) : sentMsgs (a ++ b) = sentMsgs a ++ sentMsgs b := by
  induction a with
  | nil => rfl
  | cons e a ih => cases e <;> simp [sentMsgs, ih]

theorem acceptedMsgs_append {N : Type} (a b : List (Event N)) :
    acceptedMsgs (a ++ b) = acceptedMsgs a ++ acceptedMsgs b := by
  induction a with
  | nil => rfl
  | cons e a ih => cases e <;> simp [acceptedMsgs, ih]

theorem nonces_append {N : Type} (a b : List (Event N)) : nonces (a ++ b) = nonces a ++ nonces b := by
  induction a with
  | nil => rfl
  | cons e a ih => cases e <;> simp [nonces, ih]

theorem sendCount_append (a b : List Op) : sendCount (a ++ b) = sendCount a + sendCount b := by
  induction a with
  | nil => simp [sendCount]
  | cons op a ih => cases op <;> (simp [sendCount, ih]; try omega)

theorem Unforged.prefix {s : State} {a b : List Op} (h : Unforged A nonceOf s (a ++ b)) :
    Unforged A nonceOf s a := by
  intro bef hd pl aft he
  exact h bef hd pl (aft ++ b) (by rw [he]; simp)

/-- Packet ids the receiver accepted, newest first. -/
def acceptedPids {N : Type} : List Nat → List (Event N) → List Nat
  | acc, [] => acc
  | acc, .accepted _ _ p :: es => acceptedPids (p :: acc) es
  | acc, _ :: es => acceptedPids acc es

theorem acceptedPids_append {N : Type} (acc : List Nat) (a b : List (Event N)) :
    acceptedPids acc (a ++ b) = acceptedPids (acceptedPids acc a) b := by
  induction a generalizing acc with
  | nil => rfl
  | cons e a ih => cases e <;> simp [acceptedPids, ih]

theorem mem_acceptedPids {N : Type} {acc : List Nat} {es : List (Event N)} {p : Nat} :
    p ∈ acceptedPids acc es ↔ p ∈ acc ∨ ∃ h m, Event.accepted h m p ∈ es := by
  induction es generalizing acc with
  | nil => simp [acceptedPids]
  | cons e es ih =>
    cases e with
    | accepted h m q =>
      simp only [acceptedPids, ih, List.mem_cons, Event.accepted.injEq]
      constructor
      · rintro ((rfl | h1) | ⟨h', m', h1⟩)
        · exact Or.inr ⟨h, m, Or.inl ⟨rfl, rfl, rfl⟩⟩
        · exact Or.inl h1
        · exact Or.inr ⟨h', m', Or.inr h1⟩
      · rintro (h1 | ⟨h', m', ⟨rfl, rfl, rfl⟩ | h1⟩)
        · exact Or.inl (Or.inr h1)
        · exact Or.inl (Or.inl rfl)
        · exact Or.inr ⟨h', m', h1⟩
    | sent h m q n ct => simp [acceptedPids, ih]
    | rejected h m q => simp [acceptedPids, ih]
    | reset => simp [acceptedPids, ih]
    | senderReset => simp [acceptedPids, ih]

theorem splitTransient_append (b : Bytes) (n : Nat) (hn : n < 2 ^ 64) :
    splitTransient (b ++ toBE 8 n) = some (n, b) := by
  have hn' : n < 256 ^ 8 := by
    have : (256 : Nat) ^ 8 = 2 ^ 64 := by norm_num
    omega
  unfold splitTransient
  have hl : (b ++ toBE 8 n).length = b.length + 8 := by simp
  rw [hl, if_neg (by omega), Nat.add_sub_cancel, drop_append_len, take_append_len, fromBE_toBE hn']

/-- What validation does, as three cases. -/
theorem validate_cases (r : Receiver) (h b : Bytes) :
    (∃ tid ct m pid, splitTransient b = some (tid, ct) ∧
        A.dec (nonceOf tid) h ct = some (m ++ toBE 8 pid) ∧ pid < 2 ^ 64 ∧
        (Replay.onPidReceived r.ara pid).2 = true ∧
        validate A nonceOf r h b = ({ ara := (Replay.onPidReceived r.ara pid).1 }, .ok (pid, m))) ∨
    (∃ e, validate A nonceOf r h b = (r, .error e)) := by
  unfold validate
  cases hs : splitTransient b with
  | none => right; exact ⟨_, rfl⟩
  | some x =>
    obtain ⟨tid, ct⟩ := x
    simp only
    cases hd : A.dec (nonceOf tid) h ct with
    | none => right; exact ⟨_, rfl⟩
    | some pt =>
      simp only
      by_cases hl : pt.length < 8
      · right; simp only [hl, if_true]; exact ⟨_, rfl⟩
      · simp only [hl, if_false]
        have hdl : (pt.drop (pt.length - 8)).length = 8 := by simp; omega
        cases hq : (Replay.onPidReceived r.ara (fromBE (pt.drop (pt.length - 8)))).2 with
        | true =>
          left
          refine ⟨tid, ct, pt.take (pt.length - 8), fromBE (pt.drop (pt.length - 8)), rfl, ?_, ?_, hq, ?_⟩
          · have := toBE_fromBE (pt.drop (pt.length - 8))
            rw [hdl] at this
            rw [this, List.take_append_drop]
            exact hd
          · have h1 := fromBE_lt (pt.drop (pt.length - 8))
            rw [hdl] at h1
            have h2 : (256 : Nat) ^ 8 = 2 ^ 64 := by norm_num
            omega
          · simp
        | false =>
          right
          refine ⟨.antiReplayInvalid, ?_⟩
          have hr : (Replay.onPidReceived r.ara (fromBE (pt.drop (pt.length - 8)))).1 = r.ara := by
            by_cases hc : fromBE (pt.drop (pt.length - 8)) < r.ara.highWater - Replay.historyLen ∨
                fromBE (pt.drop (pt.length - 8)) ∈ r.ara.seen
            · rw [Replay.reject _ hc]
            · unfold Replay.onPidReceived at hq
              push Not at hc
              have hc1 : ¬ (fromBE (pt.drop (pt.length - 8)) < r.ara.highWater - Replay.historyLen) := by
                have := hc.1; omega
              simp [hc1, hc.2] at hq
          simp [hr]

/-- The invariant tying a run without resets to the list of sent messages. -/
structure J (base : Nat) (ops : List Op) (s : State) (tr : List (Event A.Nonce)) : Prop where
  count : (sentMsgs tr).length = sendCount ops
  counter : s.sender.ara.counterOut = sendCount ops % 2 ^ 64
  transient : s.sender.transient = (base + sendCount ops) % 2 ^ 64
  sent : ∀ h m pid n ct, Event.sent h m pid n ct ∈ tr →
    (sentMsgs tr)[pid]? = some (h, m) ∧ ct = A.enc n h (m ++ toBE 8 pid)
  ara : Replay.Inv s.receiver.ara (acceptedPids [] tr)
  lt : ∀ p ∈ acceptedPids [] tr, p < sendCount ops
  accepted : (acceptedPids [] tr).map (fun p => (sentMsgs tr)[p]?) = (acceptedMsgs tr).reverse.map some

theorem J_init (base : Nat) (hb : base < 2 ^ 64) : J (A := A) base [] (init base) [] := by
  refine ⟨rfl, rfl, ?_, ?_, Replay.inv_init 0, ?_, rfl⟩
  · simp only [init, sendCount, Nat.add_zero, Nat.mod_eq_of_lt hb]
  · intro _ _ _ _ _ h; cases h
  · intro p h; simp [acceptedPids] at h

theorem toBE8_inj_append {m m' : Bytes} {p p' : Nat} (hp : p < 2 ^ 64) (hp' : p' < 2 ^ 64)
    (h : m ++ toBE 8 p = m' ++ toBE 8 p') : m = m' ∧ p = p' := by
  have h1 := List.append_inj' h (by simp)
  refine ⟨h1.1, ?_⟩
  have h2 := congrArg fromBE h1.2
  have e : (256 : Nat) ^ 8 = 2 ^ 64 := by norm_num
  rwa [fromBE_toBE (by omega), fromBE_toBE (by omega)] at h2

theorem J_step (hA : A.Correct) (base : Nat) (ops : List Op) (op : Op) (s : State) (tr : List (Event A.Nonce))
    (hrun : run A nonceOf (init base) ops = (s, tr))
    (hJ : J base ops s tr) (hnr : op ≠ .resetReceiver) (hnr2 : op ≠ .resetSender)
    (hu : Unforged A nonceOf (init base) (ops ++ [op])) (hc : sendCount (ops ++ [op]) ≤ 2 ^ 64) :
    J base (ops ++ [op]) (step A nonceOf s op).1 (tr ++ [(step A nonceOf s op).2]) := by
  cases op with
  | resetReceiver => exact absurd rfl hnr
  | resetSender => exact absurd rfl hnr2
  | send hl full =>
    have hcs : sendCount (ops ++ [Op.send hl full]) = sendCount ops + 1 := by
      simp [sendCount_append, sendCount]
    have hlt : sendCount ops < 2 ^ 64 := by omega
    have hpid : s.sender.ara.counterOut = sendCount ops := by
      rw [hJ.counter, Nat.mod_eq_of_lt hlt]
    have hsm : sentMsgs (tr ++ [(step A nonceOf s (.send hl full)).2]) =
        sentMsgs tr ++ [(full.take hl, full.drop hl)] := by
      rw [sentMsgs_append]; rfl
    have hap : acceptedPids [] (tr ++ [(step A nonceOf s (.send hl full)).2]) = acceptedPids [] tr := by
      rw [acceptedPids_append]; rfl
    have ham : acceptedMsgs (tr ++ [(step A nonceOf s (.send hl full)).2]) = acceptedMsgs tr := by
      rw [acceptedMsgs_append]; simp [step, acceptedMsgs]
    refine ⟨?_, ?_, ?_, ?_, ?_, ?_, ?_⟩
    · rw [hsm, List.length_append, hJ.count, hcs]; rfl
    · rw [hcs]; simp only [step, protect, Replay.getNextPid, hpid]
    · rw [hcs]; simp only [step, protect, hJ.transient]; omega
    · intro h m pid n ct hmem
      rw [hsm]
      rcases List.mem_append.1 hmem with hmem | hmem
      · obtain ⟨h1, h2⟩ := hJ.sent h m pid n ct hmem
        refine ⟨?_, h2⟩
        rw [List.getElem?_append_left]
        · exact h1
        · by_contra hge
          rw [List.getElem?_eq_none (by omega)] at h1; cases h1
      · simp only [step, protect, Replay.getNextPid, List.mem_singleton, Event.sent.injEq] at hmem
        obtain ⟨rfl, rfl, rfl, rfl, rfl⟩ := hmem
        refine ⟨?_, rfl⟩
        rw [hpid, ← hJ.count, List.getElem?_append_right (le_refl _)]
        simp
    · rw [hap]; exact hJ.ara
    · rw [hap, hcs]; intro p hp; have := hJ.lt p hp; omega
    · rw [hap, ham, hsm, ← hJ.accepted]
      apply List.map_congr_left
      intro p hp
      rw [List.getElem?_append_left]
      rw [hJ.count]; exact hJ.lt p hp
  | deliver h b =>
    have hcs : sendCount (ops ++ [Op.deliver h b]) = sendCount ops := by
      simp [sendCount_append, sendCount]
    rcases validate_cases (A := A) (nonceOf := nonceOf) s.receiver h b with
      ⟨tid, ct, m, pid, hs, hd, hp, hok, hv⟩ | ⟨e, hv⟩
    · have hstep : step A nonceOf s (.deliver h b) =
          ({ s with receiver := { ara := (Replay.onPidReceived s.receiver.ara pid).1 } }, .accepted h m pid) := by
        simp [step, hv]
      obtain ⟨m', pid', hsent⟩ := hu ops h b [] rfl tid ct hs (by rw [hd]; rfl)
      rw [hrun] at hsent
      obtain ⟨hs1, hs2⟩ := hJ.sent _ _ _ _ _ hsent
      have hpid' : pid' < sendCount ops := by
        rw [← hJ.count]; by_contra hge; rw [List.getElem?_eq_none (by omega)] at hs1; cases hs1
      rw [hs2, hA] at hd
      have := toBE8_inj_append (by omega) hp (Option.some.inj hd)
      obtain ⟨rfl, rfl⟩ := this
      have hsm : sentMsgs (tr ++ [Event.accepted h m' pid']) = sentMsgs tr := by
        rw [sentMsgs_append]; simp [sentMsgs]
      have hap : acceptedPids [] (tr ++ [Event.accepted (N := A.Nonce) h m' pid']) =
          pid' :: acceptedPids [] tr := by
        rw [acceptedPids_append]; rfl
      have hc0 := (Replay.onPid_true_iff hJ.ara pid').1 hok
      have hns : pid' ∉ s.receiver.ara.seen := fun hm => hc0.1 ((hJ.ara.seenIff pid').1 hm).1
      rw [hstep]
      refine ⟨?_, ?_, ?_, ?_, ?_, ?_, ?_⟩
      · rw [hsm, hcs]; exact hJ.count
      · rw [hcs]; exact hJ.counter
      · rw [hcs]; exact hJ.transient
      · intro h1 m1 p1 n1 c1 hmem
        rw [hsm]
        apply hJ.sent
        simpa using hmem
      · rw [hap]
        have := (Replay.inv_accept hJ.ara pid' hc0.2 hns).1
        exact this
      · rw [hap, hcs]
        intro p hp'
        rcases List.mem_cons.1 hp' with rfl | hp'
        · exact hpid'
        · exact hJ.lt p hp'
      · rw [hap, hsm, acceptedMsgs_append]
        simp only [acceptedMsgs, List.map_cons, List.reverse_append, List.reverse_cons, List.reverse_nil,
          List.nil_append, List.singleton_append, List.cons.injEq]
        exact ⟨hs1, hJ.accepted⟩
    · have hstep : step A nonceOf s (.deliver h b) = (s, .rejected h b e) := by
        simp [step, hv]
      rw [hstep]
      have hsm : sentMsgs (tr ++ [Event.rejected h b e]) = sentMsgs tr := by
        rw [sentMsgs_append]; simp [sentMsgs]
      have hap : acceptedPids [] (tr ++ [Event.rejected (N := A.Nonce) h b e]) = acceptedPids [] tr := by
        rw [acceptedPids_append]; rfl
      have ham : acceptedMsgs (tr ++ [Event.rejected (N := A.Nonce) h b e]) = acceptedMsgs tr := by
        rw [acceptedMsgs_append]; simp [acceptedMsgs]
      refine ⟨?_, ?_, ?_, ?_, ?_, ?_, ?_⟩
      · rw [hsm, hcs]; exact hJ.count
      · rw [hcs]; exact hJ.counter
      · rw [hcs]; exact hJ.transient
      · intro h1 m1 p1 n1 c1 hmem
        rw [hsm]
        apply hJ.sent
        simpa using hmem
      · rw [hap]; exact hJ.ara
      · rw [hap, hcs]; exact hJ.lt
      · rw [hap, hsm, ham]; exact hJ.accepted

theorem J_run (hA : A.Correct) (base : Nat) (hb : base < 2 ^ 64) (ops : List Op) (hnr : NoReset ops)
    (hu : Unforged A nonceOf (init base) ops) (hc : sendCount ops ≤ 2 ^ 64) :
    J base ops (run A nonceOf (init base) ops).1 (run A nonceOf (init base) ops).2 := by
  induction ops using List.reverseRecOn with
  | nil => exact J_init base hb
  | append_singleton ops op ih =>
    have hc' : sendCount ops ≤ 2 ^ 64 := by rw [sendCount_append] at hc; omega
    have hnr' : NoReset ops := ⟨fun hm => hnr.1 (List.mem_append_left _ hm), fun hm => hnr.2 (List.mem_append_left _ hm)⟩
    have := J_step hA base ops op _ _ rfl (ih hnr' hu.prefix hc')
      (fun h => hnr.1 (by rw [h]; simp)) (fun h => hnr.2 (by rw [h]; simp)) hu hc
    rw [run_append]
    exact this

/-! ### Runs with resets -/

/-- Sent packets with their id. -/
def sentTriples {N : Type} : List (Event N) → List (Nat × Bytes × Bytes)
  | [] => []
  | .sent h m p _ _ :: es => (p, h, m) :: sentTriples es
  | _ :: es => sentTriples es

theorem sentTriples_append {N : Type} (a b : List (Event N)) :
    sentTriples (a ++ b) = sentTriples a ++ sentTriples b := by
  induction a with
  | nil => rfl
  | cons e a ih => cases e <;> simp [sentTriples, ih]

theorem sentTriples_map {N : Type} (a : List (Event N)) : (sentTriples a).map Prod.snd = sentMsgs a := by
  induction a with
  | nil => rfl
  | cons e a ih => cases e <;> simp [sentTriples, sentMsgs, ih]

theorem mem_sentTriples {N : Type} {a : List (Event N)} {h m p n ct} (hm : Event.sent h m p n ct ∈ a) :
    (p, h, m) ∈ sentTriples a := by
  induction a with
  | nil => cases hm
  | cons e a ih =>
    rcases List.mem_cons.1 hm with rfl | hm'
    · simp [sentTriples]
    · have := ih hm'
      cases e <;> simp [sentTriples, this]

theorem resetCount_append (a b : List Op) : resetCount (a ++ b) = resetCount a + resetCount b := by
  induction a with
  | nil => simp [resetCount]
  | cons op a ih => cases op <;> (simp [resetCount, ih]; try omega)

/-- Invariant for all runs: accepted packets, split at the receiver's resets (newest segment first). -/
structure K (ops : List Op) (s : State) (tr : List (Event A.Nonce)) : Prop where
  counter : s.sender.ara.counterOut < 2 ^ 64
  sent : ∀ h m pid n ct, Event.sent h m pid n ct ∈ tr → pid < 2 ^ 64 ∧ ct = A.enc n h (m ++ toBE 8 pid)
  segs : ∃ cur : List (Nat × Bytes × Bytes), ∃ old : List (List (Nat × Bytes × Bytes)),
    Replay.Inv s.receiver.ara (cur.map Prod.fst) ∧ old.length = resetCount ops ∧
    (∀ seg ∈ cur :: old, (seg.map Prod.fst).Nodup ∧ ∀ x ∈ seg, x ∈ sentTriples tr) ∧
    (cur :: old).flatten.map Prod.snd = (acceptedMsgs tr).reverse

theorem K_step (hA : A.Correct) (base : Nat) (ops : List Op) (op : Op) (s : State) (tr : List (Event A.Nonce))
    (hrun : run A nonceOf (init base) ops = (s, tr)) (hK : K ops s tr)
    (hu : Unforged A nonceOf (init base) (ops ++ [op])) :
    K (ops ++ [op]) (step A nonceOf s op).1 (tr ++ [(step A nonceOf s op).2]) := by
  obtain ⟨hcnt, hsent, cur, old, hinv, hlen, hseg, hflat⟩ := hK
  cases op with
  | resetReceiver =>
    refine ⟨hcnt, ?_, [], cur :: old, ?_, ?_, ?_, ?_⟩
    · intro h m pid n ct hm
      exact hsent h m pid n ct (by simpa [step] using hm)
    · exact Replay.inv_init 0
    · simp [resetCount_append, resetCount, hlen]
    · intro seg hs
      rcases List.mem_cons.1 hs with rfl | hs
      · simp
      · refine ⟨(hseg seg hs).1, fun x hx => ?_⟩
        rw [sentTriples_append]; exact List.mem_append_left _ ((hseg seg hs).2 x hx)
    · rw [acceptedMsgs_append]
      simpa [step, acceptedMsgs] using hflat
  | resetSender =>
    refine ⟨by simp [step, Replay.reset, Replay.init], ?_, cur, old, hinv, ?_, ?_, ?_⟩
    · intro h m pid n ct hm
      exact hsent h m pid n ct (by simpa [step] using hm)
    · simp [resetCount_append, resetCount, hlen]
    · intro seg hs
      refine ⟨(hseg seg hs).1, fun x hx => ?_⟩
      rw [sentTriples_append]; exact List.mem_append_left _ ((hseg seg hs).2 x hx)
    · rw [acceptedMsgs_append]
      simpa [step, acceptedMsgs] using hflat
  | send hl full =>
    refine ⟨?_, ?_, cur, old, hinv, ?_, ?_, ?_⟩
    · simp only [step, protect, Replay.getNextPid]
      exact Nat.mod_lt _ (by norm_num)
    · intro h m pid n ct hm
      rcases List.mem_append.1 hm with hm | hm
      · exact hsent h m pid n ct hm
      · simp only [step, protect, Replay.getNextPid, List.mem_singleton, Event.sent.injEq] at hm
        obtain ⟨rfl, rfl, rfl, rfl, rfl⟩ := hm
        exact ⟨hcnt, rfl⟩
    · simp [resetCount_append, resetCount, hlen]
    · intro seg hs
      refine ⟨(hseg seg hs).1, fun x hx => ?_⟩
      rw [sentTriples_append]; exact List.mem_append_left _ ((hseg seg hs).2 x hx)
    · rw [acceptedMsgs_append]
      simpa [step, acceptedMsgs] using hflat
  | deliver h b =>
    rcases validate_cases (A := A) (nonceOf := nonceOf) s.receiver h b with
      ⟨tid, ct, m, pid, hs, hd, hp, hok, hv⟩ | ⟨e, hv⟩
    · have hstep : step A nonceOf s (.deliver h b) =
          ({ s with receiver := { ara := (Replay.onPidReceived s.receiver.ara pid).1 } }, .accepted h m pid) := by
        simp [step, hv]
      obtain ⟨m', pid', hsnt⟩ := hu ops h b [] rfl tid ct hs (by rw [hd]; rfl)
      rw [hrun] at hsnt
      obtain ⟨hs1, hs2⟩ := hsent _ _ _ _ _ hsnt
      rw [hs2, hA] at hd
      obtain ⟨rfl, rfl⟩ := toBE8_inj_append hs1 hp (Option.some.inj hd)
      have hc0 := (Replay.onPid_true_iff hinv pid').1 hok
      have hns : pid' ∉ s.receiver.ara.seen := fun hm => hc0.1 ((hinv.seenIff pid').1 hm).1
      rw [hstep]
      have hI := (Replay.inv_accept hinv pid' hc0.2 hns).1
      have hst : sentTriples (tr ++ [Event.accepted (N := A.Nonce) h m' pid']) = sentTriples tr := by
        rw [sentTriples_append]; simp [sentTriples]
      refine ⟨hcnt, ?_, (pid', h, m') :: cur, old, by simpa using hI, ?_, ?_, ?_⟩
      · intro h1 m1 p1 n1 c1 hm
        exact hsent h1 m1 p1 n1 c1 (by simpa using hm)
      · simp [resetCount_append, resetCount, hlen]
      · intro seg hsg
        rw [hst]
        rcases List.mem_cons.1 hsg with rfl | hsg
        · refine ⟨by simpa using hI.nodupAcc, fun x hx => ?_⟩
          rcases List.mem_cons.1 hx with rfl | hx
          · exact mem_sentTriples hsnt
          · exact (hseg cur (List.mem_cons_self ..)).2 x hx
        · exact hseg seg (List.mem_cons_of_mem _ hsg)
      · rw [acceptedMsgs_append]
        simpa [acceptedMsgs] using hflat
    · have hstep : step A nonceOf s (.deliver h b) = (s, .rejected h b e) := by
        simp [step, hv]
      rw [hstep]
      have hst : sentTriples (tr ++ [Event.rejected (N := A.Nonce) h b e]) = sentTriples tr := by
        rw [sentTriples_append]; simp [sentTriples]
      refine ⟨hcnt, ?_, cur, old, hinv, ?_, ?_, ?_⟩
      · intro h1 m1 p1 n1 c1 hm
        exact hsent h1 m1 p1 n1 c1 (by simpa using hm)
      · simp [resetCount_append, resetCount, hlen]
      · rw [hst]; exact hseg
      · rw [acceptedMsgs_append]
        simpa [acceptedMsgs] using hflat

theorem K_run (hA : A.Correct) (base : Nat) (ops : List Op) (hu : Unforged A nonceOf (init base) ops) :
    K ops (run A nonceOf (init base) ops).1 (run A nonceOf (init base) ops).2 := by
  induction ops using List.reverseRecOn with
  | nil =>
    refine ⟨by simp [run, init, Replay.init], by simp [run], [], [], Replay.inv_init 0, rfl, by simp, by simp [run, acceptedMsgs]⟩
  | append_singleton ops op ih =>
    have := K_step hA base ops op _ _ rfl (ih hu.prefix) hu
    rw [run_append]
    exact this

theorem subperm_flatten {α : Type} (segs : List (List α)) (l : List α) (h : ∀ s ∈ segs, List.Subperm s l) :
    List.Subperm segs.flatten (List.replicate segs.length l).flatten := by
  induction segs with
  | nil => simp
  | cons s segs ih =>
    simp only [List.flatten_cons, List.length_cons, List.replicate_succ]
    exact (h s (List.mem_cons_self ..)).append (ih (fun t ht => h t (List.mem_cons_of_mem _ ht)))

theorem accepted_subperm (hA : A.Correct) (base : Nat) (ops : List Op) (hu : Unforged A nonceOf (init base) ops) :
    List.Subperm (acceptedMsgs (run A nonceOf (init base) ops).2)
      (List.replicate (resetCount ops + 1) (sentMsgs (run A nonceOf (init base) ops).2)).flatten := by
  obtain ⟨-, -, cur, old, -, hlen, hseg, hflat⟩ := K_run hA base ops hu
  generalize (run A nonceOf (init base) ops).2 = tr at *
  have h1 := subperm_flatten (cur :: old) (sentTriples tr)
    (fun s hs => (List.Nodup.of_map _ (hseg s hs).1).subperm (hseg s hs).2)
  have h2 := subperm_map h1 Prod.snd
  rw [hflat, List.map_flatten, List.map_replicate, sentTriples_map, List.length_cons, hlen] at h2
  exact (List.reverse_perm _).symm.subperm.trans h2

end Verif.Packet

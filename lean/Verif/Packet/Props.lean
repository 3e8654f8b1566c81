import Verif.Packet.Lemmas
import Mathlib.Data.List.Nodup

/-! Properties C04 and C50 of packet protection. -/
namespace Verif.Packet
open Verif

attribute [local irreducible] Replay.historyLen Replay.u64Max

variable (A : Aead) (nonceOf : Nat → A.Nonce)

/-- **C04 (genuine, at most once).** In every run without a reset of the receiver's counters and without a break of
the AEAD, what the receiver accepted is, counted with multiplicity, among what the sender protected: same header, same
payload, and never more often than it was sent. (As this holds for every prefix of a run, acceptance always comes after
sending.) -/
theorem C04_accepted_among_sent (hA : A.Correct) (base : Nat) (ops : List Op)
    (hnr : Op.resetReceiver ∉ ops) (hu : Unforged A nonceOf (init base) ops) :
    List.Subperm (acceptedMsgs (run A nonceOf (init base) ops).2) (sentMsgs (run A nonceOf (init base) ops).2) := by
  have h := accepted_subperm hA base ops hu
  have h0 : resetCount ops = 0 := by
    clear h hu
    induction ops with
    | nil => rfl
    | cons op ops ih =>
      have := ih (fun hm => hnr (List.mem_cons_of_mem _ hm))
      cases op <;> simp_all [resetCount]
  rw [h0] at h
  simpa using h

/-- **C51 (partial).** Across any number of resets of the counters on either side, everything accepted was really
sent, and each packet is accepted at most once per period between two resets of the receiver. Missing (and false, see
`C51_counterexample_across_reset`): at most once overall. -/
theorem C51_at_most_once_per_period_partial (hA : A.Correct) (base : Nat) (ops : List Op)
    (hu : Unforged A nonceOf (init base) ops) (msg : Bytes × Bytes) :
    (acceptedMsgs (run A nonceOf (init base) ops).2).count msg ≤
      (resetCount ops + 1) * (sentMsgs (run A nonceOf (init base) ops).2).count msg := by
  have h := (accepted_subperm hA base ops hu).count_le msg
  refine h.trans (le_of_eq ?_)
  generalize resetCount ops + 1 = k
  induction k with
  | zero => simp
  | succ k ih => simp [List.replicate_succ, ih, Nat.succ_mul, Nat.add_comm]

/-- **C04 (rejections are harmless).** Delivering anything that is rejected leaves both endpoints exactly as they
were, in every state, with no assumption on the AEAD at all: a forged packet cannot burn the id of a genuine one. -/
theorem C04_rejected_changes_nothing (s : State) (header payload : Bytes) (e : ValidateError) (h' b' : Bytes)
    (h : (step A nonceOf s (.deliver header payload)).2 = .rejected h' b' e) :
    (step A nonceOf s (.deliver header payload)).1 = s := by
  rcases validate_cases (A := A) (nonceOf := nonceOf) s.receiver header payload with
    ⟨tid, ct, m, pid, -, -, -, -, hv⟩ | ⟨e', hv⟩
  · simp [step, hv] at h
  · simp [step, hv]

/-- **C04 (genuine packets get through).** After any such run, deliver the wire bytes of the packet that a further
send produces: it is accepted with exactly the payload that was sent, unless its id is more than 1023 behind an
accepted one; interleaved forgeries, replays and reorderings `middle` make no difference. -/
theorem C04_genuine_accepted (hA : A.Correct) (base : Nat) (hb : base < 2 ^ 64) (before middle : List Op)
    (headerLen : Nat) (full : Bytes)
    (hnr : NoReset (before ++ .send headerLen full :: middle))
    (hu : Unforged A nonceOf (init base) (before ++ .send headerLen full :: middle))
    (hc : sendCount (before ++ .send headerLen full :: middle) ≤ 2 ^ 64) :
    let s₀ := (run A nonceOf (init base) before).1
    let wire := (protect A nonceOf s₀.sender headerLen full).2.2.2.2
    let r := run A nonceOf (init base) (before ++ .send headerLen full :: middle)
    (∀ h m, Event.accepted h m (sendCount before) ∉ r.2) →
    (∀ h m q, Event.accepted h m q ∈ r.2 → q ≤ sendCount before + 1023) →
    (full.length ≥ headerLen) →
    (step A nonceOf r.1 (.deliver (wire.take headerLen) (wire.drop headerLen))).2 =
      .accepted (full.take headerLen) (full.drop headerLen) (sendCount before) := by
  intro s₀ wire r hnew hwin hlen
  have hJ := J_run hA base hb _ hnr hu hc
  have hcb : sendCount before < 2 ^ 64 := by
    rw [sendCount_append] at hc; simp [sendCount] at hc; omega
  have hJ₀ := J_run (nonceOf := nonceOf) hA base hb before ⟨fun h => hnr.1 (List.mem_append_left _ h), fun h => hnr.2 (List.mem_append_left _ h)⟩ hu.prefix
    (by omega)
  have htl : s₀.sender.transient < 2 ^ 64 := by
    show (run A nonceOf (init base) before).1.sender.transient < _
    rw [hJ₀.transient]; exact Nat.mod_lt _ (by norm_num)
  have hpid : s₀.sender.ara.counterOut = sendCount before := by
    show (run A nonceOf (init base) before).1.sender.ara.counterOut = _
    rw [hJ₀.counter, Nat.mod_eq_of_lt hcb]
  have hwire : wire = full.take headerLen ++
      (A.enc (nonceOf s₀.sender.transient) (full.take headerLen) (full.drop headerLen ++ toBE 8 (sendCount before)) ++
        toBE 8 s₀.sender.transient) := by
    show (protect A nonceOf s₀.sender headerLen full).2.2.2.2 = _
    simp only [protect, Replay.getNextPid, hpid, List.append_assoc]
  have hhl : (full.take headerLen).length = headerLen := by simp; omega
  have e1 : wire.take headerLen = full.take headerLen := by
    rw [hwire]; exact List.take_left' hhl
  have e2 : wire.drop headerLen =
      A.enc (nonceOf s₀.sender.transient) (full.take headerLen) (full.drop headerLen ++ toBE 8 (sendCount before)) ++
        toBE 8 s₀.sender.transient := by
    rw [hwire]; exact List.drop_left' hhl
  rw [e1, e2]
  have hpt : ¬ ((full.drop headerLen ++ toBE 8 (sendCount before)).length < 8) := by simp
  have hacc : (Replay.onPidReceived r.1.receiver.ara (sendCount before)).2 = true := by
    rw [Replay.onPid_true_iff hJ.ara]
    constructor
    · rw [mem_acceptedPids]; rintro (h | ⟨h, m, hm⟩)
      · cases h
      · exact hnew h m hm
    · rcases hJ.ara.hwAttained with h0 | ⟨q, hq, he⟩
      · show r.1.receiver.ara.highWater - _ ≤ _
        have : r.1.receiver.ara.highWater = 0 := h0
        omega
      · rw [mem_acceptedPids] at hq
        rcases hq with hq | ⟨h, m, hq⟩
        · cases hq
        · have hw := hwin h m q hq
          have hs : Replay.satSucc q ≤ q + 1 := Nat.min_le_left ..
          have hH : Replay.historyLen = 1024 := by unfold Replay.historyLen; rfl
          have he' : r.1.receiver.ara.highWater = Replay.satSucc q := he
          show r.1.receiver.ara.highWater - _ ≤ _
          omega
  have e3 : (256 : Nat) ^ 8 = 2 ^ 64 := by norm_num
  have hval : validate A nonceOf r.1.receiver (full.take headerLen)
      (A.enc (nonceOf s₀.sender.transient) (full.take headerLen) (full.drop headerLen ++ toBE 8 (sendCount before)) ++
        toBE 8 s₀.sender.transient) =
      ({ ara := (Replay.onPidReceived r.1.receiver.ara (sendCount before)).1 },
        .ok (sendCount before, full.drop headerLen)) := by
    unfold validate
    rw [splitTransient_append _ _ htl]
    simp only [hA _ _ _, hpt, if_false]
    have hl : (full.drop headerLen ++ toBE 8 (sendCount before)).length - 8 = (full.drop headerLen).length := by
      simp
    rw [hl, drop_append_len, take_append_len, fromBE_toBE (by omega)]
    simp only [hacc, if_true]
  simp [step, hval]

/-- A toy AEAD (the key is 0; the ciphertext carries nonce, header length and plaintext in the clear) shows that the
hypotheses of C04 can be met together: it is correct, and in this run the genuine packet is delivered twice, followed
by a forgery. -/
def toyAead : Aead where
  Nonce := Nat
  enc n ad pt := [UInt8.ofNat n, UInt8.ofNat ad.length] ++ ad ++ pt
  dec n ad ct :=
    if ct.take 2 = [UInt8.ofNat n, UInt8.ofNat ad.length] ∧ (ct.drop 2).take ad.length = ad then
      some ((ct.drop 2).drop ad.length) else none

theorem toyAead_correct : toyAead.Correct := by
  intro n ad pt
  simp [toyAead]

/-- What one genuine packet of the toy looks like on the wire. -/
def toyWire : Bytes := [7, 5, 1, 7, 42, 0, 0, 0, 0, 0, 0, 0, 0, 0, 0, 0, 0, 0, 0, 0, 5]

def toyOps : List Op := [.send 1 [7, 42], .deliver (toyWire.take 1) (toyWire.drop 1),
  .deliver (toyWire.take 1) (toyWire.drop 1), .deliver [7] [1, 2, 3, 4, 5, 6, 7, 8, 9]]

example : Unforged toyAead id (init 5) toyOps := by
  have hrun : (run toyAead id (init 5) [.send 1 [7, 42]]).2 =
      [.sent [7] [42] 0 (5 : Nat) [5, 1, 7, 42, 0, 0, 0, 0, 0, 0, 0, 0]] := by rfl
  have hsplit : splitTransient (toyWire.drop 1) = some (5, [5, 1, 7, 42, 0, 0, 0, 0, 0, 0, 0, 0]) := by
    decide +kernel
  intro before header payload after he tid ct hs hd
  match before, he with
  | [], he => simp [toyOps] at he
  | [a], he =>
    simp only [toyOps, List.cons_append, List.nil_append, List.cons.injEq, Op.deliver.injEq] at he
    obtain ⟨rfl, ⟨rfl, rfl⟩, -⟩ := he
    rw [hsplit] at hs
    cases hs
    exact ⟨[42], 0, by rw [hrun]; exact List.mem_cons_self ..⟩
  | [a, b], he =>
    simp only [toyOps, List.cons_append, List.nil_append, List.cons.injEq, Op.deliver.injEq] at he
    obtain ⟨rfl, rfl, ⟨rfl, rfl⟩, -⟩ := he
    rw [hsplit] at hs
    cases hs
    exact ⟨[42], 0, List.mem_cons_self ..⟩
  | [a, b, c], he =>
    simp only [toyOps, List.cons_append, List.nil_append, List.cons.injEq, Op.deliver.injEq] at he
    obtain ⟨rfl, rfl, rfl, ⟨rfl, rfl⟩, -⟩ := he
    have : splitTransient [1, 2, 3, 4, 5, 6, 7, 8, 9] = some (fromBE [2, 3, 4, 5, 6, 7, 8, 9], [1]) := by
      decide +kernel
    rw [this] at hs
    cases hs
    simp [toyAead] at hd
  | a :: b :: c :: d :: e, he => simp [toyOps] at he

example : acceptedMsgs (run toyAead id (init 5) toyOps).2 = [([7], [42])] ∧
    sentMsgs (run toyAead id (init 5) toyOps).2 = [([7], [42])] ∧ NoReset toyOps ∧ sendCount toyOps ≤ 2 ^ 64 := by
  refine ⟨by decide +kernel, by decide +kernel, by simp [NoReset, toyOps], by decide⟩

/-- **C51 is false of the code.** The receiver forgets everything on a counter reset (which
`refresh_static_ratchet` performs on the static auxiliary ratchet at the start of every session while its keys stay
the same): the same wire bytes are then accepted a second time although they were protected once. -/
theorem C51_counterexample_across_reset :
    let ops : List Op := [.send 1 [7, 42], .deliver (toyWire.take 1) (toyWire.drop 1), .resetReceiver, .resetSender,
      .deliver (toyWire.take 1) (toyWire.drop 1)]
    acceptedMsgs (run toyAead id (init 5) ops).2 = [([7], [42]), ([7], [42])] ∧
    sentMsgs (run toyAead id (init 5) ops).2 = [([7], [42])] := by
  refine ⟨by decide +kernel, by decide +kernel⟩

/-- **C50.** Under one key, one counter instance never uses a nonce twice: if the nonce derivation is injective and
fewer than 2^63 packets are protected, starting from any base the code can draw (a random 63-bit number), all nonces
are different and the counter never wraps. -/
theorem C50_nonces_distinct (hinj : ∀ i j, i < 2 ^ 64 → j < 2 ^ 64 → nonceOf i = nonceOf j → i = j)
    (base : Nat) (hb : base < 2 ^ 63) (ops : List Op) (hc : sendCount ops ≤ 2 ^ 63) :
    (nonces (run A nonceOf (init base) ops).2).Nodup ∧
    nonces (run A nonceOf (init base) ops).2 =
      (List.range (sendCount ops)).map (fun i => nonceOf (base + i)) := by
  have key : ∀ ops : List Op, sendCount ops ≤ 2 ^ 63 →
      (run A nonceOf (init base) ops).1.sender.transient = (base + sendCount ops) % 2 ^ 64 ∧
      nonces (run A nonceOf (init base) ops).2 =
        (List.range (sendCount ops)).map (fun i => nonceOf (base + i)) := by
    intro ops
    induction ops using List.reverseRecOn with
    | nil =>
      intro _
      refine ⟨?_, rfl⟩
      simp only [run, init, sendCount, Nat.add_zero]
      omega
    | append_singleton ops op ih =>
      intro hc
      have hc' : sendCount ops ≤ 2 ^ 63 := by rw [sendCount_append] at hc; omega
      obtain ⟨h1, h2⟩ := ih hc'
      rw [run_append]
      simp only [run, nonces_append, h2]
      cases op with
      | send hl full =>
        have hcs : sendCount (ops ++ [Op.send hl full]) = sendCount ops + 1 := by
          simp [sendCount_append, sendCount]
        rw [hcs] at hc ⊢
        simp only [step, protect, h1, nonces]
        rw [List.range_succ, List.map_append, Nat.mod_eq_of_lt (show base + sendCount ops < 2 ^ 64 by omega)]
        exact ⟨by omega, rfl⟩
      | deliver h b =>
        have hcs : sendCount (ops ++ [Op.deliver h b]) = sendCount ops := by
          simp [sendCount_append, sendCount]
        rw [hcs]
        rcases validate_cases (A := A) (nonceOf := nonceOf) (run A nonceOf (init base) ops).1.receiver h b with
          ⟨tid, ct, m, pid, -, -, -, -, hv⟩ | ⟨e', hv⟩
        · simp [step, hv, h1, nonces]
        · simp [step, hv, h1, nonces]
      | resetReceiver =>
        have hcs : sendCount (ops ++ [Op.resetReceiver]) = sendCount ops := by
          simp [sendCount_append, sendCount]
        rw [hcs]
        simp [step, h1, nonces]
      | resetSender =>
        have hcs : sendCount (ops ++ [Op.resetSender]) = sendCount ops := by
          simp [sendCount_append, sendCount]
        rw [hcs]
        simp [step, h1, nonces]
  obtain ⟨-, h2⟩ := key ops hc
  refine ⟨?_, h2⟩
  rw [h2]
  apply List.Nodup.map_on _ List.nodup_range
  intro i hi j hj hij
  rw [List.mem_range] at hi hj
  have := hinj _ _ (by omega) (by omega) hij
  omega

end Verif.Packet

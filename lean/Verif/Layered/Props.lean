import Verif.Layered.Lemmas

/-! Properties C19 and C61: layered packet protection and layered local encryption. -/
namespace Verif.Layered
open Verif Verif.Packet

/-- **C19, single packet, any state.** Whatever the counters of both endpoints are, a packet protected at a level the ratchet
has is restored exactly by validation at that level, if the anti-replay check of every layer passed accepts the packet id. -/
theorem C19_roundtrip (R : Ratchet) (hA : ∀ n, (R.layer n).A.Correct) (hc : R.count ≤ 256) (s : SendState) (r : RecvState)
    (level : Option Nat) (hl : level.getD 0 < R.count) (header payload : Bytes)
    (hp : ∀ n, (s n).ara.counterOut < 2 ^ 64) (ht : ∀ n, (s n).transient < 2 ^ 64)
    (hacc : ∀ n ≤ level.getD 0, (Replay.onPidReceived (r n).ara (s n).ara.counterOut).2 = true) :
    ∃ wire, (protectMessage R s level header.length (header ++ payload)).2 = (header ++ wire, .ok ()) ∧
      (validateMessage R r level header wire).2 = (payload, .ok ()) := by
  refine ⟨body R (fun n => (s n).ara.counterOut) (fun n => (s n).transient) header payload (level.getD 0 + 1), ?_, ?_⟩
  · unfold protectMessage
    rw [verifyLevel_ok hc _ hl]
    simp only [protectLoop_range (R := R) (level.getD 0 + 1) (by omega) s header payload]
  · unfold validateMessage
    rw [verifyLevel_ok hc _ hl]
    simp only [validateLoop_range hA (level.getD 0 + 1) (by omega) r header payload _ _ (fun n _ => hp n) (fun n _ => ht n)
      (fun n hn => hacc n (by omega))]

/-- **C19, whole sessions.** From fresh endpoints, send any messages at any levels the ratchet has and deliver any of them, at
most once each, in any order that stays within the replay window: every delivered message is restored exactly. -/
theorem C19_session (R : Ratchet) (hA : ∀ n, (R.layer n).A.Correct) (hc : R.count ≤ 256) (base : Nat → Nat)
    (msgs : List Msg) (hm : ∀ m ∈ msgs, m.level.getD 0 < R.count ∧ m.headerLen ≤ m.packet.length)
    (hlen : msgs.length < 2 ^ 64) (order : List Nat) (hnd : order.Nodup) (hin : ∀ i ∈ order, i < msgs.length)
    (hwin : order.Pairwise (fun earlier later => earlier ≤ later + 1023)) :
    deliverAll R freshRecv (order.map fun i =>
      let m := msgs.getD i default
      let w := (sendAll R (freshSend base) msgs).getD i []
      (m.level, w.take m.headerLen, w.drop m.headerLen)) =
    order.map fun i => .ok ((msgs.getD i default).packet.drop (msgs.getD i default).headerLen) := by
  have hd := deliverAll_get (R := R) hA hc msgs (fun m h => (hm m h).1) hlen
    (fun n i => (base n % 2 ^ 64 + uses msgs n i) % 2 ^ 64) (fun _ _ => Nat.mod_lt _ (by decide)) order [] freshRecv
    (by simpa using hin) (fun n => Replay.inv_init 0) (by simpa using hnd) (by simpa using hwin)
  rw [← hd]
  congr 1
  apply List.map_congr_left
  intro i hi
  have hil := hin i hi
  have hmi : msgs.getD i default = msgs[i] := by simp [List.getD_eq_getElem?_getD, hil]
  have hs := sendAll_get (R := R) hc msgs (freshSend base) hm
    (fun n => by simp only [freshSend, Replay.init]; omega) (fun n => Nat.mod_lt _ (by decide)) i hil
  have hlen' : (msgs[i].packet.take msgs[i].headerLen).length = msgs[i].headerLen := by
    rw [List.length_take]; exact Nat.min_eq_left (hm _ (List.getElem_mem hil)).2
  simp only [hmi, hs, List.take_left' hlen', List.drop_left' hlen']
  simp [freshSend, Replay.init]

/-- **C19, strength.** Protection at a level applies every layer up to that level and no other: exactly these layers use up a
packet id and a nonce, and the wire is the nesting of their encryptions, layer 0 innermost. -/
theorem C19_layers_used (R : Ratchet) (hc : R.count ≤ 256) (s : SendState) (level : Option Nat)
    (hl : level.getD 0 < R.count) (header payload : Bytes) :
    (∀ n, ((protectMessage R s level header.length (header ++ payload)).1 n).transient =
      if n ≤ level.getD 0 then ((s n).transient + 1) % 2 ^ 64 else (s n).transient) ∧
    (protectMessage R s level header.length (header ++ payload)).2.1 = header ++
      (List.range (level.getD 0 + 1)).foldl (fun inner n =>
        (R.layer n).A.enc ((R.layer n).nonceOf (s n).transient) header (inner ++ toBE 8 (s n).ara.counterOut) ++
          toBE 8 (s n).transient) payload := by
  unfold protectMessage
  rw [verifyLevel_ok hc _ hl]
  simp only [protectLoop_range (R := R) (level.getD 0 + 1) (by omega) s header payload]
  constructor
  · intro n
    by_cases hn : n ≤ level.getD 0
    · rw [if_pos hn, if_pos (by omega)]; rfl
    · rw [if_neg hn, if_neg (by omega)]
  · congr 1
    generalize level.getD 0 + 1 = k
    induction k with
    | zero => rfl
    | succ k ih => rw [List.range_succ, List.foldl_append, ← ih]; rfl

/-- **C19, refusal.** A level above the maximum is refused on both sides; packet and counters are untouched. -/
theorem C19_refused (R : Ratchet) (hc : R.count ≤ 256) (level : Option Nat) (hl : R.count ≤ level.getD 0)
    (s : SendState) (r : RecvState) (headerLen : Nat) (packet header payload : Bytes) :
    (∃ e, protectMessage R s level headerLen packet = (s, packet, .error e)) ∧
    (∃ e, validateMessage R r level header payload = (r, payload, .error e)) := by
  have : ∃ e, verifyLevel R level = .error e := by
    unfold verifyLevel
    by_cases h0 : R.count = 0
    · rw [if_pos h0]; exact ⟨_, rfl⟩
    · rw [if_neg h0, if_pos (by omega)]; exact ⟨_, rfl⟩
  obtain ⟨e, he⟩ := this
  exact ⟨⟨e, by unfold protectMessage; rw [he]⟩, ⟨e, by unfold validateMessage; rw [he]⟩⟩

/-- **C61.** Locally encrypted contents (also empty ones) are restored exactly at every level the ratchet has, whatever the
transient counters are; a level above the maximum is refused and leaves the counters as they are. -/
theorem C61_local_roundtrip (R : Ratchet) (hA : ∀ n, (R.layer n).A.Correct) (hc : R.count ≤ 256) (t : Nat → Nat)
    (ht : ∀ n, t n < 2 ^ 64) (level : Nat) (contents : Bytes) :
    (level < R.count → ∃ t' c, localEncrypt R t level contents = (t', .ok c) ∧ localDecrypt R level c = .ok contents) ∧
    (R.count ≤ level → (∃ e, localEncrypt R t level contents = (t, .error e)) ∧
      (contents ≠ [] → ∃ e, localDecrypt R level contents = .error e)) := by
  constructor
  · intro hl
    obtain ⟨t', c, h1, -, h3, -, h5⟩ := local_range hA (level + 1) (by omega) t ht contents
    refine ⟨t', c, ?_, ?_⟩
    · unfold localEncrypt
      rw [verifyLevel_ok hc _ (by simpa using hl)]
      exact h1
    · unfold localDecrypt
      rw [if_neg (h3 (by omega)), verifyLevel_ok hc _ (by simpa using hl)]
      exact h5
  · intro hl
    have : ∃ e, verifyLevel R (some level) = .error e := by
      unfold verifyLevel
      by_cases h0 : R.count = 0
      · rw [if_pos h0]; exact ⟨_, rfl⟩
      · rw [if_neg h0, if_pos (by simp; omega)]; exact ⟨_, rfl⟩
    obtain ⟨e, he⟩ := this
    refine ⟨⟨e, by unfold localEncrypt; rw [he]⟩, fun hne => ⟨e, by unfold localDecrypt; rw [if_neg hne, he]⟩⟩

/-! ### The hypotheses are met -/

/-- A toy AEAD whose ciphertext depends on nonce and associated data, and fails when they do not match. -/
def toy (k : UInt8) : Aead where
  Nonce := Nat
  enc n ad pt := k :: UInt8.ofNat n :: UInt8.ofNat ad.length :: pt
  dec n ad ct := match ct with
    | a :: b :: c :: pt => if a = k ∧ b = UInt8.ofNat n ∧ c = UInt8.ofNat ad.length then some pt else none
    | _ => none

theorem toy_correct (k : UInt8) : (toy k).Correct := by intro n ad pt; simp [toy]

/-- Three layers with different keys. -/
def toyRatchet : Ratchet := { count := 3, layer := fun n => { A := toy (UInt8.ofNat (n + 1)), nonceOf := id } }

def toyMsgs : List Msg := [⟨none, 1, [9, 1, 2]⟩, ⟨some 2, 2, [9, 8, 3]⟩, ⟨some 1, 0, [4, 5]⟩]

/-- Different levels, delivered out of order, all restored. -/
example : (deliverAll toyRatchet freshRecv ([2, 0, 1].map fun i =>
      let m := toyMsgs.getD i default
      let w := (sendAll toyRatchet (freshSend fun _ => 7) toyMsgs).getD i []
      (m.level, w.take m.headerLen, w.drop m.headerLen))) = [.ok [4, 5], .ok [1, 2], .ok [3]] :=
  (C19_session toyRatchet (fun _ => toy_correct _) (by decide) (fun _ => 7) toyMsgs (by decide) (by decide) [2, 0, 1]
    (by decide) (by decide) (by decide)).trans rfl

end Verif.Layered

import Verif.GroupIds.Lemmas
/-
C85: what is sent over a connection as messages arrives as messages, whatever files are sent in between.
-/
namespace Verif.GroupIds
open Verif

variable {T : Type}

/-- What the receiver's application gets. -/
def delivered (arr : List (Pkt T)) : List T := (receive Ordered.new arr).out

theorem all_delivered {c : Conn} {rs : List (Send T)} {arr : List (Pkt T)} (hc : c = .server ∨ NoFile rs)
    (hr : rs.length < 2 ^ 64) (hlen : arr.length < 2 ^ 64) (hs : ∀ i m, Pkt.message i m ∈ arr → Pkt.message i m ∈ emit c fresh rs)
    (ha : ∀ p ∈ emit c fresh rs, p ∈ arr) : delivered arr = messages rs := by
  have hml := messages_length rs
  have hi := inbox_length arr
  have key := emit_plain rs fresh hc (show 0 + (messages rs).length < 2 ^ 64 by omega)
  have hfr : fresh.msg = 0 := rfl
  unfold delivered
  rw [receive_run]
  have ht := out_take (arr := inbox arr) (ms := messages rs) (by omega) (by
    intro i m h _
    have := ((key i m).mp (mem_inbox.mpr (hs i m (mem_inbox.mp h)))).2
    simpa [hfr] using this)
  obtain ⟨⟨hmiss, _⟩, _⟩ := Ordered.C09_everything_deliverable_is_delivered (inbox arr) (by omega)
  rw [ht]
  apply List.take_of_length_le
  rcases Nat.lt_or_ge (Ordered.run Ordered.new (inbox arr)).out.length (messages rs).length with h | h
  · exfalso
    apply hmiss
    unfold Ordered.ids
    refine List.mem_map.mpr ⟨(_, (messages rs)[(Ordered.run Ordered.new (inbox arr)).out.length]), ?_, rfl⟩
    refine mem_inbox.mpr (ha _ (mem_inbox.mp ((key _ _).mpr ⟨Nat.zero_le _, ?_⟩)))
    rw [hfr, Nat.sub_zero, List.getElem?_eq_getElem h]
  · exact h

/-- On a connection to the server all messages are delivered, in order, once all packets have arrived, in any order and
with any repetitions, whatever files were sent. -/
theorem C85_server (rs : List (Send T)) (arr : List (Pkt T)) (hr : rs.length < 2 ^ 64) (hlen : arr.length < 2 ^ 64)
    (hs : ∀ i m, Pkt.message i m ∈ arr → Pkt.message i m ∈ emit .server fresh rs)
    (ha : ∀ p ∈ emit .server fresh rs, p ∈ arr) : delivered arr = messages rs :=
  all_delivered (Or.inl rfl) hr hlen hs ha

/-- On a connection to a peer the same holds as long as no file is sent.
Missing: files, for which it is false (`C85_counterexample_peer`). -/
theorem C85_peer_partial (rs : List (Send T)) (arr : List (Pkt T)) (hn : NoFile rs) (hr : rs.length < 2 ^ 64)
    (hlen : arr.length < 2 ^ 64) (hs : ∀ i m, Pkt.message i m ∈ arr → Pkt.message i m ∈ emit .peer fresh rs)
    (ha : ∀ p ∈ emit .peer fresh rs, p ∈ arr) : delivered arr = messages rs :=
  all_delivered (Or.inr hn) hr hlen hs ha

/-- After the first file sent to a peer no later message is ever delivered: whatever is sent afterwards, and whichever
packets arrive how often and in which order, the receiver gets a prefix of what was sent before the file. -/
theorem C85_counterexample_peer (pre post : List (Send T)) (n : Nat) (arr : List (Pkt T)) (hn : NoFile pre)
    (hr : (pre ++ .file n :: post).length < 2 ^ 64) (hlen : arr.length < 2 ^ 64)
    (hs : ∀ i m, Pkt.message i m ∈ arr → Pkt.message i m ∈ emit .peer fresh (pre ++ .file n :: post)) :
    delivered arr <+: messages pre := by
  have hfr : fresh.msg = 0 := rfl
  simp only [List.length_append, List.length_cons] at hr
  have hml := messages_length pre
  have hi := inbox_length arr
  have haft := after_plain (c := .peer) pre fresh hn (by rw [hfr]; omega)
  rw [hfr, Nat.zero_add] at haft
  have key := emit_plain (c := .peer) pre fresh (Or.inr hn) (by rw [hfr]; omega)
  -- what is sent after the file has greater ids than the file
  have late : ∀ i m, Pkt.message i m ∈ arr → (messages pre)[i]? = some m ∨ (messages pre).length < i := by
    intro i m h
    have h := mem_inbox.mpr (hs i m h)
    rw [emit_append, inbox_append, List.mem_append] at h
    rcases h with h | h
    · left
      have := ((key i m).mp h).2
      simpa [hfr] using this
    · right
      simp only [emit, send, inbox_append, inbox_groups, List.nil_append] at h
      have hw : Ordered.wsucc (after .peer fresh pre).msg = (messages pre).length + 1 := by
        rw [haft]
        exact Nat.mod_eq_of_lt (by omega)
      have := emit_ge post ⟨Ordered.wsucc (after .peer fresh pre).msg, ((after .peer fresh pre).file + (n - 1)) % 2 ^ 64⟩
        (by dsimp only; omega) i m h
      dsimp only at this
      omega
  unfold delivered
  rw [receive_run]
  obtain ⟨hpre, _⟩ := Ordered.C08_output_is_numbered_prefix (inbox arr) (by omega)
  have hk : (Ordered.run Ordered.new (inbox arr)).out.length ≤ (messages pre).length := by
    rcases Nat.lt_or_ge (messages pre).length (Ordered.run Ordered.new (inbox arr)).out.length with h | h
    · exfalso
      obtain ⟨⟨i, m⟩, hm, e⟩ := List.mem_map.mp (hpre _ h)
      dsimp only at e
      subst e
      rcases late _ m (mem_inbox.mp hm) with h | h
      · rw [List.getElem?_eq_none (Nat.le_refl _)] at h
        cases h
      · omega
    · exact h
  have ht := out_take (arr := inbox arr) (ms := messages pre) (by omega) (by
    intro i m h hi
    rcases late i m (mem_inbox.mp h) with h | h
    · exact h
    · omega)
  rw [ht]
  exact List.take_prefix _ _

/-- The messages sent before and after a file to a peer, all packets arriving in order: only the first is delivered. -/
example :
    let rs : List (Send String) := [.message "a", .file 2, .message "b", .message "c"]
    delivered (emit .peer fresh rs) = ["a"] ∧ delivered (emit .server fresh rs) = ["a", "b", "c"] := by decide

/-- The hypotheses of `C85_server` for packets that arrive out of order and repeatedly. -/
example :
    let rs : List (Send String) := [.message "a", .file 2, .message "b"]
    let arr : List (Pkt String) := [.message 1 "b", .group 1, .message 1 "b", .group 0, .message 0 "a"]
    delivered arr = messages rs ∧ emit .server fresh rs = [.message 0 "a", .group 0, .group 1, .message 1 "b"] := by
  constructor
  · decide
  · rfl

end Verif.GroupIds

import Verif.ByteStream.Spec
import Verif.Wire.Props
namespace Verif.ByteStream
open Verif.Wire

/-! ### C176: the native stream -/

theorem bytes_cons (e : Ev) (es : List Ev) : ((e :: es).map Ev.bytes).flatten = e.bytes ++ (es.map Ev.bytes).flatten := by simp

theorem take_bytes (w : Ws) (cap : Nat) (d : Bytes) (rest : List Ev) (hb : w.buf = []) :
    got (w.take cap d rest).2 ++ (w.take cap d rest).1.buf = d ∧ (w.take cap d rest).1.inner = rest := by
  simp only [Ws.take, got, hb, List.nil_append, and_true]
  split
  · exact List.take_append_drop ..
  · rename_i h
    rw [List.append_nil, List.take_of_length_le (by omega)]

theorem poll_bytes (w : Ws) (cap : Nat) :
    got (w.poll cap).2 ++ ((w.poll cap).1.buf ++ ((w.poll cap).1.inner.map Ev.bytes).flatten) =
      w.buf ++ (w.inner.map Ev.bytes).flatten := by
  unfold Ws.poll
  split
  · simp only [got]
    rw [← List.append_assoc, List.take_append_drop]
  · rename_i hb
    have hb : w.buf = [] := by simpa using hb
    split
    · rename_i h; simp [got]
    · rename_i d rest h
      have := take_bytes w cap d rest hb
      rw [this.2, ← List.append_assoc, this.1, hb, h, bytes_cons]; rfl
    · rename_i d rest h
      have := take_bytes w cap d rest hb
      rw [this.2, ← List.append_assoc, this.1, hb, h, bytes_cons]; rfl
    all_goals
      rename_i rest h
      rw [h, bytes_cons]; simp [got, Ev.bytes]

/-- What was read, what is buffered and what is to come are the bytes of the messages, in order: nothing is lost, repeated or
exchanged, with buffers of any sizes. -/
theorem C176_order (w : Ws) (caps : List Nat) :
    allGot (w.reads caps).2 ++ ((w.reads caps).1.buf ++ ((w.reads caps).1.inner.map Ev.bytes).flatten) =
      w.buf ++ (w.inner.map Ev.bytes).flatten := by
  induction caps generalizing w with
  | nil => simp [Ws.reads, allGot]
  | cons c cs ih =>
    have h1 := poll_bytes w c
    have h2 := ih (w.poll c).1
    simp only [Ws.reads, allGot, List.map_cons, List.flatten_cons] at h2 ⊢
    rw [List.append_assoc, h2, h1]

/-- A read never gets more than there is room for. -/
theorem C176_room (w : Ws) (cap : Nat) : (got (w.poll cap).2).length ≤ cap := by
  unfold Ws.poll Ws.take
  split
  · simp only [got, List.length_take]; omega
  · split <;> simp only [got, List.length_take, List.length_nil] <;> omega

/-- A read that has to wait was woken, or the connection below said so (and wakes it). A control message is no reason to wait. -/
theorem C176_wakes (w : Ws) (cap : Nat) (h : (w.poll cap).2 = .pending false) :
    w.buf = [] ∧ (w.inner = [] ∨ w.inner.head? = some .pending) := by
  unfold Ws.poll Ws.take at h
  split at h
  · simp at h
  · rename_i hb
    refine ⟨by simpa using hb, ?_⟩
    split at h
    · rename_i h'; exact .inl h'
    all_goals first
      | (simp at h; done)
      | (rename_i rest h'; rw [h']; simp)

/-! ### C177: the end of the native stream -/

/-- The full statement: a read with room that gets nothing means that the peer has closed the connection. -/
def C177_full : Prop := ∀ (w : Ws) (cap : Nat), 0 < cap → (w.poll cap).2 = .ready [] →
  w.buf = [] ∧ ∃ e rest, w.inner = e :: rest ∧ e.ends = true

/-- It holds if no data message is empty. -/
theorem C177_eof_partial (w : Ws) (cap : Nat) (hc : 0 < cap) (hne : ∀ e ∈ w.inner, e.isEmpty = false)
    (h : (w.poll cap).2 = .ready []) : w.buf = [] ∧ ∃ e rest, w.inner = e :: rest ∧ e.ends = true := by
  unfold Ws.poll at h
  split at h
  · rename_i hb
    simp only [Poll.ready.injEq, List.take_eq_nil_iff] at h
    rcases h with h | h
    · have : w.buf.length ≠ 0 := by simpa using hb
      omega
    · exact absurd h hb
  · rename_i hb
    refine ⟨by simpa using hb, ?_⟩
    split at h
    · simp at h
    · rename_i d rest h'
      simp only [Ws.take, Poll.ready.injEq, List.take_eq_nil_iff] at h
      have hd : d ≠ [] := by
        rintro rfl
        have := hne (.item (.binary [])) (by rw [h']; simp)
        simp [Ev.isEmpty] at this
      rcases h with h | h
      · have : d.length ≠ 0 := by simpa using hd
        omega
      · exact absurd h hd
    · rename_i d rest h'
      simp only [Ws.take, Poll.ready.injEq, List.take_eq_nil_iff] at h
      have hd : d ≠ [] := by
        rintro rfl
        have := hne (.item (.text [])) (by rw [h']; simp)
        simp [Ev.isEmpty] at this
      rcases h with h | h
      · have : d.length ≠ 0 := by simpa using hd
        omega
      · exact absurd h hd
    · rename_i rest h'; exact ⟨_, rest, h', rfl⟩
    · simp at h
    · rename_i rest h'; exact ⟨_, rest, h', rfl⟩
    · simp at h
    · simp at h

/-- An empty frame reads as the end: -/
theorem C177_counterexample_empty : ¬ C177_full := by
  intro h
  obtain ⟨_, e, rest, he, hd⟩ := h { inner := [.item (.binary [])] } 1 (by decide) rfl
  simp at he
  rw [← he.1] at hd
  exact absurd hd (by decide)

/-- and whatever the peer sends after it is not read by one who stops at the end. -/
theorem C177_counterexample_rest (d : Bytes) (es : List Ev) (caps : List Nat) :
    untilEof (Ws.reads { inner := .item (.binary []) :: .item (.binary d) :: es } caps).2 = [] := by
  cases caps with
  | nil => rfl
  | cons c cs => simp [Ws.reads, Ws.poll, Ws.take, untilEof]

/-- Without empty messages, one who stops at the end has what came before the close. -/
theorem C177_complete_partial (ds : List Bytes) (hd : ∀ d ∈ ds, d ≠ []) (es : List Ev) (caps : List Nat) (hc : ∀ c ∈ caps, 0 < c)
    (heof : Poll.ready [] ∈ (Ws.reads { inner := ds.map (.item ∘ .binary) ++ .item .close :: es } caps).2) :
    untilEof (Ws.reads { inner := ds.map (.item ∘ .binary) ++ .item .close :: es } caps).2 = ds.flatten := by
  have key : ∀ (caps : List Nat), (∀ c ∈ caps, 0 < c) → ∀ (ds : List Bytes), (∀ d ∈ ds, d ≠ []) → ∀ (b : Bytes),
      Poll.ready [] ∈ (Ws.reads { buf := b, inner := ds.map (.item ∘ .binary) ++ .item .close :: es } caps).2 →
      untilEof (Ws.reads { buf := b, inner := ds.map (.item ∘ .binary) ++ .item .close :: es } caps).2 = b ++ ds.flatten := by
    intro caps
    induction caps with
    | nil => intro _ ds _ b h; simp [Ws.reads] at h
    | cons c cs ih =>
      intro hc ds hd b h
      have hc0 := hc c (by simp)
      have hcs : ∀ c ∈ cs, 0 < c := fun x hx => hc x (by simp [hx])
      have one : ∀ (x : Bytes) (n : Nat), x ≠ [] → n = min c x.length → x.take n ≠ [] := by
        intro x n hx hn h0
        have : x.length ≠ 0 := by simpa using hx
        rcases List.take_eq_nil_iff.mp h0 with h0 | h0
        · omega
        · exact hx h0
      have un : ∀ (x : Bytes) (ps : List Poll), x ≠ [] → untilEof (.ready x :: ps) = x ++ untilEof ps := by
        intro x ps hx
        cases x with
        | nil => exact absurd rfl hx
        | cons => rfl
      by_cases hb : b = []
      · subst hb
        cases ds with
        | nil => simp [Ws.reads, Ws.poll, untilEof]
        | cons d ds =>
          have hdd := hd d (by simp)
          have hne := one d _ hdd rfl
          simp only [List.map_cons, List.cons_append, Function.comp, Ws.reads, Ws.poll, ne_eq, not_true, if_false, Ws.take,
            List.nil_append] at h ⊢
          rw [un _ _ hne]
          have h' := (List.mem_cons.mp h).resolve_left (fun e => hne (by simpa using e.symm))
          have := ih hcs ds (fun x hx => hd x (by simp [hx])) (if min c d.length < d.length then d.drop (min c d.length) else [])
            h'
          refine (congrArg _ this).trans ?_
          rw [← List.append_assoc, List.flatten_cons]
          congr 1
          split
          · exact List.take_append_drop ..
          · rw [List.append_nil, List.take_of_length_le (by omega)]
      · have hne := one b _ hb rfl
        simp only [Ws.reads, Ws.poll, ne_eq, hb, not_false_eq_true, if_true] at h ⊢
        rw [un _ _ hne]
        have h' := (List.mem_cons.mp h).resolve_left (fun e => hne (by simpa using e.symm))
        rw [ih hcs ds hd _ h', ← List.append_assoc, List.take_append_drop]
  exact key caps hc ds hd [] heof

example : Poll.ready [] ∈ (Ws.reads { inner := [[1, 2, 3], [4]].map (.item ∘ .binary) ++ [.item .close] } [2, 2, 2, 2]).2 := by
  decide

/-! ### C178: the stream of the browser -/

theorem wake_buf (w : Wasm) : w.wake.buf = w.buf := by unfold Wasm.wake; split <;> rfl

theorem wpoll_bytes (w : Wasm) (cap : Nat) : got (w.poll cap).2 ++ (w.poll cap).1.buf = w.buf := by
  unfold Wasm.poll
  split
  · simp [got]
  · rename_i h
    have h : w.buf = [] := by simpa using h
    split
    · simp [got]
    · split <;> simp [got, h]

/-- What was read and what is buffered are the bytes of the binary messages, in order. -/
theorem C178_order (w : Wasm) (as : List Act) :
    allGot (w.run as).2 ++ (w.run as).1.buf = w.buf ++ (as.map Act.bytes).flatten := by
  induction as generalizing w with
  | nil => simp [Wasm.run, allGot]
  | cons a as ih =>
    cases a with
    | call c =>
      simp only [Wasm.run, ih]
      cases c <;> simp [Wasm.call, wake_buf, Act.bytes]
    | poll n =>
      have h1 := wpoll_bytes w n
      have h2 := ih (w.poll n).1
      simp only [Wasm.run, allGot, List.map_cons, List.flatten_cons, Act.bytes, List.nil_append] at h2 ⊢
      rw [List.append_assoc, h2, ← List.append_assoc, h1]

/-- A reader that waits to be woken has nothing to read: there are no bytes, no error and no close it does not know of. -/
theorem C178_wakes (as : List Act) (h : (Wasm.run {} as).1.parked = true) :
    (Wasm.run {} as).1.buf = [] ∧ (Wasm.run {} as).1.error = false ∧ (Wasm.run {} as).1.closed = false := by
  have key : ∀ (as : List Act) (w : Wasm), (w.parked = true → w.waker = true ∧ w.buf = [] ∧ w.error = false ∧ w.closed = false) →
      ((w.run as).1.parked = true → (w.run as).1.waker = true ∧ (w.run as).1.buf = [] ∧ (w.run as).1.error = false ∧
        (w.run as).1.closed = false) := by
    intro as
    induction as with
    | nil => intro w h; exact h
    | cons a as ih =>
      intro w h
      cases a with
      | call c =>
        simp only [Wasm.run]
        refine ih _ ?_
        have wk : ∀ v : Wasm, v.parked = w.parked → v.waker = w.waker → v.wake.parked = false := by
          intro v h1 h2
          unfold Wasm.wake
          split
          · rfl
          · rename_i hw
            rw [h2] at hw
            rw [h1]
            cases hp : w.parked with
            | false => rfl
            | true => exact absurd (h hp).1 hw
        cases c with
        | message d => intro hp; exact absurd (hp.symm.trans (wk _ rfl rfl)) (by simp)
        | text d => exact h
        | error => intro hp; exact absurd (hp.symm.trans (wk _ rfl rfl)) (by simp)
        | close => intro hp; exact absurd (hp.symm.trans (wk _ rfl rfl)) (by simp)
      | poll n =>
        simp only [Wasm.run]
        refine ih _ ?_
        unfold Wasm.poll
        split
        · rename_i hb
          intro hp; exact absurd (h hp).2.1 hb
        · rename_i hb
          have hb : w.buf = [] := by simpa using hb
          split
          · exact h
          · split
            · exact h
            · rename_i h1 h2
              intro _; exact ⟨rfl, hb, by simpa using h2, by simpa using h1⟩
  exact (key as {} (by simp) h).2

/-- A read with room that gets nothing means that the channel is closed, and everything was read. -/
theorem C178_eof (as : List Act) (cap : Nat) (hc : 0 < cap) (h : ((Wasm.run {} as).1.poll cap).2 = .ready []) :
    Act.call .close ∈ as ∧ allGot (Wasm.run {} as).2 = (as.map Act.bytes).flatten := by
  have ho := C178_order {} as
  simp only [List.nil_append] at ho
  unfold Wasm.poll at h
  split at h
  · rename_i hb
    simp only [Poll.ready.injEq, List.take_eq_nil_iff] at h
    have : (Wasm.run {} as).1.buf.length ≠ 0 := by simpa using hb
    rcases h with h | h
    · omega
    · exact absurd h hb
  · rename_i hb
    have hb : (Wasm.run {} as).1.buf = [] := by simpa using hb
    rw [hb, List.append_nil] at ho
    refine ⟨?_, ho⟩
    split at h
    · rename_i hcl
      have key : ∀ (as : List Act) (w : Wasm), (w.run as).1.closed = true → w.closed = true ∨ Act.call .close ∈ as := by
        intro as
        induction as with
        | nil => intro w h; exact .inl h
        | cons a as ih =>
          intro w h
          have wc : ∀ v : Wasm, v.wake.closed = v.closed := by intro v; unfold Wasm.wake; split <;> rfl
          cases a with
          | call c =>
            simp only [Wasm.run] at h
            rcases ih _ h with h | h
            · cases c with
              | message d => exact .inl ((wc { w with buf := w.buf ++ d }).symm.trans h)
              | text d => exact .inl h
              | error => exact .inl ((wc { w with error := true }).symm.trans h)
              | close => exact .inr (by simp)
            · exact .inr (List.mem_cons_of_mem _ h)
          | poll n =>
            simp only [Wasm.run] at h
            rcases ih _ h with h | h
            · refine .inl ?_
              unfold Wasm.poll at h
              split at h
              · exact h
              · split at h
                · exact h
                · split at h <;> exact h
            · exact .inr (List.mem_cons_of_mem _ h)
      exact (key as {} hcl).resolve_left (by simp)
    · split at h <;> simp at h

/-- A write fails after the close or an error, and is one message otherwise. -/
theorem C178_write (w : Wasm) (buf : Bytes) : w.write buf = some buf ↔ w.closed = false ∧ w.error = false := by
  unfold Wasm.write
  split
  · simp_all
  · split <;> simp_all

/-! ### C179: errors in the browser -/

/-- The full statement: a connection that breaks down with an error is not read as one that was closed. -/
def C179_full : Prop := ∀ (as : List Act) (cap : Nat), 0 < cap → Act.call .error ∈ as →
  ((Wasm.run {} as).1.poll cap).2 ≠ .ready []

/-- It holds until the close event, which browsers send after the error. -/
theorem C179_error_partial (as : List Act) (cap : Nat) (hc : 0 < cap) (_he : Act.call .error ∈ as)
    (hcl : Act.call .close ∉ as) : ((Wasm.run {} as).1.poll cap).2 ≠ .ready [] :=
  fun h => hcl (C178_eof as cap hc h).1

/-- The close hides the error. -/
theorem C179_counterexample_close : ¬ C179_full := by
  intro h
  exact h [.call .error, .call .close] 1 (by decide) (by decide) rfl

/-- The full statement: the browser reads what a native node would read of the same messages. -/
def C179_same_full : Prop := ∀ (ms : List Call) (cap : Nat), 0 < cap →
  ((Wasm.run {} (ms.map .call)).1.poll cap).2 =
    (Ws.poll { inner := ms.map fun m => match m with
      | .message d => .item (.binary d)
      | .text d => .item (.text d)
      | .error => .fail
      | .close => .item .close } cap).2

/-- The bytes of text messages are left out in the browser, without an error; the native side takes them for data. -/
theorem C179_counterexample_text : ¬ C179_same_full := by
  intro h
  have := h [.text [1]] 1 (by decide)
  exact absurd this (by decide)

/-! ### C180: packets over messages -/

/-- Packets that are written with length prefixes, in writes of any sizes, and read with buffers of any sizes from the native
stream, arrive as they are once the stream is read up; -/
theorem C180_packets_partial (bodies : List Bytes) (hb : ∀ b ∈ bodies, b.length ≤ 1024 * 1024 * 64)
    (writes : List Bytes) (hw : writes.flatten = (bodies.map rawFrame).flatten) (caps : List Nat)
    (hd : (Ws.reads { inner := writes.map fun b => .item (write b).1 } caps).1 = {}) :
    (feedAll maxFrame {} ((Ws.reads { inner := writes.map fun b => .item (write b).1 } caps).2.map got)).1 = bodies ∧
    (feedAll maxFrame {} ((Ws.reads { inner := writes.map fun b => .item (write b).1 } caps).2.map got)).2.dead = false := by
  refine C138_frames_partial bodies hb _ ?_
  have := C176_order { inner := writes.map fun b => .item (write b).1 } caps
  rw [hd] at this
  simp only [List.map_nil, List.flatten_nil, List.append_nil, List.nil_append, List.map_map, allGot] at this
  rw [this, ← hw]
  congr 1
  exact (List.map_congr_left (fun _ _ => rfl)).trans (List.map_id writes)

/-- and before that, some of them. -/
theorem C180_prefix_partial (bodies : List Bytes) (hb : ∀ b ∈ bodies, b.length ≤ 1024 * 1024 * 64)
    (writes : List Bytes) (hw : writes.flatten = (bodies.map rawFrame).flatten) (caps : List Nat) :
    (feedAll maxFrame {} ((Ws.reads { inner := writes.map fun b => .item (write b).1 } caps).2.map got)).1 <+: bodies ∧
    (feedAll maxFrame {} ((Ws.reads { inner := writes.map fun b => .item (write b).1 } caps).2.map got)).2.dead = false := by
  refine C138_cut_partial bodies hb _ ?_
  have := C176_order { inner := writes.map fun b => .item (write b).1 } caps
  simp only [List.nil_append, allGot, List.map_map] at this
  refine ⟨_, this.trans ?_⟩
  rw [← hw]
  congr 1
  exact (List.map_congr_left (fun _ _ => rfl)).trans (List.map_id writes)

/-- What a writer sends is its bytes, in binary messages (the browser takes no others). -/
theorem C180_writer (ks : List Nat) (b : Bytes) :
    (∀ m ∈ (writeAll ks b).1, ∃ d, m = .binary d) ∧
    ((writeAll ks b).1.map fun m => Ev.bytes (.item m)).flatten ++ (writeAll ks b).2 = b := by
  induction ks generalizing b with
  | nil => simp [writeAll]
  | cons k ks ih =>
    obtain ⟨h1, h2⟩ := ih (b.drop (b.take k).length)
    constructor
    · intro m hm
      simp only [writeAll, write, List.mem_cons] at hm
      rcases hm with rfl | hm
      · exact ⟨_, rfl⟩
      · exact h1 m hm
    · simp only [writeAll, write, List.map_cons, List.flatten_cons, Ev.bytes, List.append_assoc]
      refine (congrArg _ h2).trans ?_
      rw [List.length_take]
      by_cases h : k ≤ b.length
      · rw [Nat.min_eq_left h, List.take_append_drop]
      · rw [Nat.min_eq_right (by omega), List.drop_length, List.append_nil, List.take_of_length_le (by omega)]

/-- The same in the browser, whatever the interleaving of messages and reads. -/
theorem C180_browser_partial (bodies : List Bytes) (hb : ∀ b ∈ bodies, b.length ≤ 1024 * 1024 * 64) (as : List Act)
    (hw : (as.map Act.bytes).flatten = (bodies.map rawFrame).flatten) :
    (feedAll maxFrame {} ((Wasm.run {} as).2.map got)).1 <+: bodies ∧
    (feedAll maxFrame {} ((Wasm.run {} as).2.map got)).2.dead = false ∧
    ((Wasm.run {} as).1.buf = [] → (feedAll maxFrame {} ((Wasm.run {} as).2.map got)).1 = bodies) := by
  have ho := C178_order {} as
  simp only [List.nil_append, allGot] at ho
  have h1 := C138_cut_partial bodies hb ((Wasm.run {} as).2.map got) ⟨_, ho.trans hw⟩
  refine ⟨h1.1, h1.2, fun he => ?_⟩
  rw [he, List.append_nil] at ho
  exact (C138_frames_partial bodies hb _ (ho.trans hw)).1

example : ∃ (writes : List Bytes) (caps : List Nat), writes.flatten = ([[7, 8], [9]].map rawFrame).flatten ∧
    (Ws.reads { inner := writes.map fun b => .item (write b).1 } caps).1 = {} ∧ 3 < writes.length :=
  ⟨[[0, 0], [0, 2, 7], [8, 0, 0, 0], [1], [9]], [1, 5, 2, 9, 9, 9, 9], by decide, by decide, by decide⟩

end Verif.ByteStream

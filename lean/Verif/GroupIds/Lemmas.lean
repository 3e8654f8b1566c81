import Verif.GroupIds.Spec
import Verif.Ordered.Props
namespace Verif.GroupIds
open Verif

variable {T : Type}

/-- The messages among packets. -/
def inbox : List (Pkt T) → List (Nat × T)
  | [] => []
  | .message id m :: ps => (id, m) :: inbox ps
  | .group _ :: ps => inbox ps

theorem mem_inbox {ps : List (Pkt T)} {i : Nat} {m : T} : (i, m) ∈ inbox ps ↔ Pkt.message i m ∈ ps := by
  induction ps with
  | nil => simp [inbox]
  | cons p ps ih => cases p <;> simp [inbox, ih]

theorem inbox_length (ps : List (Pkt T)) : (inbox ps).length ≤ ps.length := by
  induction ps with
  | nil => simp [inbox]
  | cons p ps ih => cases p <;> simp [inbox] <;> omega

theorem inbox_append (ps qs : List (Pkt T)) : inbox (ps ++ qs) = inbox ps ++ inbox qs := by
  induction ps with
  | nil => rfl
  | cons p ps ih => cases p <;> simp [inbox, ih]

theorem inbox_groups (s n : Nat) : inbox (groups s n : List (Pkt T)) = [] := by
  unfold groups
  induction List.range n with
  | nil => rfl
  | cons a l ih => simpa [inbox] using ih

theorem receive_run (ps : List (Pkt T)) : ∀ ch : Ordered.Chan T, receive ch ps = Ordered.run ch (inbox ps) := by
  induction ps with
  | nil => intro ch; rfl
  | cons p ps ih => intro ch; cases p <;> simp [receive, inbox, Ordered.run, ih]

/-- The output is determined by the first number missing, if all arrivals carry the right payload. -/
theorem out_take {arr : List (Nat × T)} {ms : List T} (hlen : arr.length < 2 ^ 64)
    (hm : ∀ i m, (i, m) ∈ arr → i < (Ordered.run Ordered.new arr).out.length → ms[i]? = some m) :
    (Ordered.run Ordered.new arr).out = ms.take (Ordered.run Ordered.new arr).out.length := by
  obtain ⟨-, h2⟩ := Ordered.C08_output_is_numbered_prefix arr hlen
  apply List.ext_getElem?
  intro j
  by_cases hj : j < (Ordered.run Ordered.new arr).out.length
  · rw [List.getElem?_take_of_lt hj, hm j _ (h2 j hj) hj, List.getElem?_eq_getElem hj]
  · rw [List.getElem?_eq_none (by omega), List.getElem?_eq_none (by rw [List.length_take]; omega)]

/-- The ids of messages on a connection with the server, or without files. -/
theorem emit_plain {c : Conn} : ∀ (rs : List (Send T)) (s : Counters), (c = .server ∨ NoFile rs) →
    s.msg + (messages rs).length < 2 ^ 64 →
    ∀ i m, (i, m) ∈ inbox (emit c s rs) ↔ s.msg ≤ i ∧ (messages rs)[i - s.msg]? = some m := by
  intro rs
  induction rs with
  | nil => intro s _ _ i m; simp [emit, inbox, messages]
  | cons r rs ih =>
    intro s hc hl i m
    have hc' : c = .server ∨ NoFile rs := hc.imp id fun h r hr => h r (List.mem_cons_of_mem _ hr)
    cases r with
    | message a =>
      have hw : Ordered.wsucc s.msg = s.msg + 1 := by
        simp only [messages, List.length_cons] at hl
        exact Nat.mod_eq_of_lt (by omega)
      simp only [messages, List.length_cons] at hl
      have := ih { s with msg := s.msg + 1 } hc' (by dsimp only; omega) i m
      dsimp only at this
      simp only [emit, send, List.singleton_append, inbox, List.mem_cons, hw, this, messages, Prod.mk.injEq]
      constructor
      · rintro (⟨rfl, rfl⟩ | ⟨h1, h2⟩)
        · simp
        · refine ⟨by omega, ?_⟩
          rw [show i - s.msg = (i - (s.msg + 1)) + 1 by omega, List.getElem?_cons_succ]
          exact h2
      · rintro ⟨h1, h2⟩
        rcases Nat.eq_or_lt_of_le h1 with e | e
        · left
          subst e
          simpa using h2.symm
        · right
          refine ⟨e, ?_⟩
          rw [show i - s.msg = (i - (s.msg + 1)) + 1 by omega, List.getElem?_cons_succ] at h2
          exact h2
    | file n =>
      rcases hc with rfl | hc
      · simp only [emit, send, inbox_append, inbox_groups, List.nil_append, messages]
        exact ih { s with file := (s.file + 1 + (n - 1)) % 2 ^ 64 } (Or.inl rfl) hl i m
      · obtain ⟨a, ha⟩ := hc _ List.mem_cons_self
        cases ha

/-- All ids that are given out are at least the counter. -/
theorem emit_ge {c : Conn} : ∀ (rs : List (Send T)) (s : Counters), s.msg + rs.length < 2 ^ 64 →
    ∀ i m, (i, m) ∈ inbox (emit c s rs) → s.msg ≤ i := by
  intro rs
  induction rs with
  | nil => intro s _ i m h; simp [emit, inbox] at h
  | cons r rs ih =>
    intro s hl i m h
    simp only [List.length_cons] at hl
    have hw : Ordered.wsucc s.msg = s.msg + 1 := Nat.mod_eq_of_lt (by omega)
    cases r with
    | message a =>
      simp only [emit, send, List.singleton_append, inbox, List.mem_cons, Prod.mk.injEq] at h
      rcases h with ⟨rfl, _⟩ | h
      · exact Nat.le_refl _
      · have := ih { s with msg := Ordered.wsucc s.msg } (by dsimp only; omega) i m h
        dsimp only at this
        omega
    | file n =>
      cases c with
      | server =>
        simp only [emit, send, inbox_append, inbox_groups, List.nil_append] at h
        exact ih { s with file := (s.file + 1 + (n - 1)) % 2 ^ 64 } (by dsimp only; omega) i m h
      | peer =>
        simp only [emit, send, inbox_append, inbox_groups, List.nil_append] at h
        have := ih ⟨Ordered.wsucc s.msg, (s.file + (n - 1)) % 2 ^ 64⟩ (by dsimp only; omega) i m h
        dsimp only at this
        omega

/-- The counters after some requests. -/
def after (c : Conn) (s : Counters) : List (Send T) → Counters
  | [] => s
  | r :: rs => after c (send c s r).1 rs

theorem emit_append (c : Conn) : ∀ (rs qs : List (Send T)) (s : Counters),
    emit c s (rs ++ qs) = emit c s rs ++ emit c (after c s rs) qs := by
  intro rs
  induction rs with
  | nil => intro qs s; rfl
  | cons r rs ih => intro qs s; simp [emit, after, ih]

theorem after_plain {c : Conn} : ∀ (rs : List (Send T)) (s : Counters), NoFile rs →
    s.msg + rs.length < 2 ^ 64 → (after c s rs).msg = s.msg + (messages rs).length := by
  intro rs
  induction rs with
  | nil => intro s _ _; rfl
  | cons r rs ih =>
    intro s hn hl
    simp only [List.length_cons] at hl
    obtain ⟨a, rfl⟩ := hn r List.mem_cons_self
    have hw : Ordered.wsucc s.msg = s.msg + 1 := Nat.mod_eq_of_lt (by omega)
    have := ih { s with msg := s.msg + 1 } (fun r hr => hn r (List.mem_cons_of_mem _ hr))
      (by dsimp only; omega)
    simp only [after, send, messages, List.length_cons]
    rw [hw, this]
    dsimp only
    omega

theorem messages_length (rs : List (Send T)) : (messages rs).length ≤ rs.length := by
  induction rs with
  | nil => simp [messages]
  | cons r rs ih => cases r <;> simp [messages] <;> omega

theorem messages_append (rs qs : List (Send T)) : messages (rs ++ qs) = messages rs ++ messages qs := by
  induction rs with
  | nil => rfl
  | cons r rs ih => cases r <;> simp [messages, ih]

end Verif.GroupIds

import Verif.Udp.Spec

namespace Verif.Udp

theorem opens_iff (s : Node) (k : Nat) (p : Packet) : opens s k p = true ↔ s.knows k p := by
  unfold opens Node.knows
  cases hc : s.conns k with
  | none => simp
  | some v =>
    cases hk : v.keys with
    | none => simp [hk]
    | some vs => simp [hk]

theorem elsewhere_iff (s : Node) (p : Packet) :
    elsewhere s p = true ↔ p.dst ≠ 0 ∧ ∃ c, s.me = some c ∧ c ≠ p.dst := by
  unfold elsewhere
  cases s.me <;> simp

theorem local_elsewhere (s : Node) (p : Packet) : p.forMe s.me ↔ elsewhere s p = false := by
  unfold Packet.forMe elsewhere
  cases h : s.me with
  | none => simp
  | some c =>
    by_cases h1 : p.dst = 0 <;> by_cases h2 : c = p.dst <;> simp [h1, h2]

/-- All that a datagram can do. -/
inductive Eff (s : Node) (k : Nat) (p : Packet) : Node → Res → Prop
  | void : Eff s k p s .void
  | proxied (v : VConn) (he : elsewhere s p = true) (hs : p.stream = true)
      (hv : s.conns p.dst = some v) (hx : v.sender = some true) :
      Eff s k p { s with udpOut := add s.udpOut p.dst p.wire } .proxied
  | panic (v : VConn) (he : elsewhere s p = true) (hs : p.stream = true)
      (hv : s.conns p.dst = some v) (hx : v.sender = none) :
      Eff s k p { s with listens := off s.listens k } .panic
  | delivered (he : elsewhere s p = false) (hs : p.stream = true) (ho : s.knows k p)
      (ht : takes s (resp p) = true) :
      Eff s k p { s with given := add s.given (resp p) p.body } (.delivered (resp p))
  | ended (he : elsewhere s p = false) (hs : p.stream = true) (ho : s.knows k p)
      (ht : takes s (resp p) = false) :
      Eff s k p { s with listens := off s.listens k } .ended

theorem eff (s : Node) (k : Nat) (p : Packet) : Eff s k p (recvUdp s k p).1 (recvUdp s k p).2 := by
  unfold recvUdp
  by_cases hl : s.listens k = true
  · rw [if_pos hl]
    unfold inbound
    cases hs : p.stream with
    | false => exact .void
    | true =>
      simp only [if_false, Bool.true_eq_false]
      cases he : elsewhere s p with
      | true =>
        simp only [if_true, proxyUdp]
        cases hv : s.conns p.dst with
        | none => exact .void
        | some v =>
          cases hx : v.sender with
          | none => simpa [hx] using Eff.panic v he hs hv hx
          | some u =>
            cases u with
            | false => simpa [hx] using (Eff.void : Eff s k p s .void)
            | true => simpa [hx] using Eff.proxied v he hs hv hx
      | false =>
        simp only [processUdp]
        cases ho : opens s k p with
        | false => exact .void
        | true =>
          have hk := (opens_iff s k p).mp ho
          cases ht : takes s (resp p) with
          | true => exact .delivered he hs hk ht
          | false => exact .ended he hs hk ht
  · rw [if_neg hl]; exact .void

theorem tcp_given (s : Node) (p : Packet) :
    (recvTcp s p).1.given = s.given ∧ (recvTcp s p).1.udpOut = s.udpOut ∧
    (recvTcp s p).1.me = s.me := by
  unfold recvTcp proxyTcp
  split
  · split
    · exact ⟨rfl, rfl, rfl⟩
    · split <;> exact ⟨rfl, rfl, rfl⟩
  · exact ⟨rfl, rfl, rfl⟩

theorem me_step (s : Node) (a : Act) : (step s a).me = s.me := by
  cases a with
  | udp k p =>
    have h := eff s k p
    show (recvUdp s k p).1.me = s.me
    generalize (recvUdp s k p).1 = t at h
    generalize (recvUdp s k p).2 = r at h
    cases h <;> rfl
  | tcp p => exact (tcp_given s p).2.2
  | write j b => rfl
  | env c l => rfl

theorem resp_says (p : Packet) (k : Nat) (h : p.says k) : resp p = k := by
  unfold Packet.says at h
  unfold resp
  split at h
  · rename_i hk; simp [h, hk]
  · simp [h.2, h.1]

end Verif.Udp

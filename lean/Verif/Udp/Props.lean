import Verif.Udp.Lemmas

/-
Properties C222 – C225: datagrams.
-/

namespace Verif.Udp

/-! ### C222: a message of an unordered channel is from the other end of its connection -/

/-- Whatever arrives, what a datagram adds to an unordered channel was sealed under keys that this
node shares with the node at the other end of the socket, and it is what was sealed. -/
theorem C222_sealed (s : Node) (k : Nat) (p : Packet) (j : Nat)
    (h : (recvUdp s k p).1.given j ≠ s.given j) :
    s.knows k p ∧ (recvUdp s k p).1.given j = s.given j ++ [p.body] := by
  have he := eff s k p
  generalize (recvUdp s k p).1 = t at he h
  generalize (recvUdp s k p).2 = r at he
  cases he with
  | delivered he hs ho ht =>
    refine ⟨ho, ?_⟩
    simp only [add] at h ⊢
    split at h <;> simp_all
  | _ => exact absurd rfl h

/-- When no node that has keys lies in its headers, what an unordered channel was given are bodies
sealed by the other end of its own connection, in the order in which they came, each once for each
time it came. What is missing: a node with keys that lies, see the counterexamples. -/
theorem C222_own_partial (me : Option Nat) (as : List Act) (h : ∀ a ∈ as, a.honest) (j : Nat) :
    ((run (start me) as).given j).Sublist (sealedFrom j as) := by
  have key : ∀ (as : List Act) (s : Node), (∀ a ∈ as, a.honest) →
      ((run s as).given j).Sublist (s.given j ++ sealedFrom j as) := by
    intro as
    induction as with
    | nil => intro s _; simp [run, sealedFrom]
    | cons a as ih =>
      intro s ha
      have hi := ih (step s a) (fun b hb => ha b (by simp [hb]))
      have hst : ((step s a).given j).Sublist (s.given j ++ sealedFrom j [a]) := by
        cases a with
        | udp k p =>
          have he := eff s k p
          show ((recvUdp s k p).1.given j).Sublist _
          generalize (recvUdp s k p).1 = t at he
          generalize (recvUdp s k p).2 = r at he
          cases he with
          | delivered he hs ho ht =>
            obtain ⟨v, vs, _, _, _, hseal⟩ := ho
            have hr := resp_says p k (ha (.udp k p) (by simp) k p.ver hseal)
            simp only [add]
            split
            · rename_i hj
              have hkj : k = j := by rw [← hr]; exact hj.symm
              subst hkj
              simp [sealedFrom, hseal]
            · exact List.sublist_append_left _ _
          | _ => exact List.sublist_append_left _ _
        | tcp p =>
          show ((recvTcp s p).1.given j).Sublist _
          rw [(tcp_given s p).1]
          exact List.sublist_append_left _ _
        | write i b => exact List.sublist_append_left _ _
        | env c l => exact List.sublist_append_left _ _
      have e : sealedFrom j (a :: as) = sealedFrom j [a] ++ sealedFrom j as := by
        simp only [sealedFrom, ← List.filterMap_append]; rfl
      rw [e, ← List.append_assoc]
      exact hi.trans (hst.append (List.Sublist.refl _))
  exact key as (start me) h

/-- The table of node 1 with the server and the peers 5 and 7, all with unordered channels. -/
def exConns : Nat → Option VConn := fun j =>
  if j = 0 ∨ j = 5 ∨ j = 7 then some { keys := some [0], sender := some true, chan := .open }
  else none

/-- The property does not hold: a peer seals with its own keys and writes the name of another peer
into the header; the message appears in the channel of that other peer. -/
theorem C222_counterexample : ∃ (s : Node) (p : Packet),
    s.conns = exConns ∧ p.tag = some (5, 0) ∧
    (recvUdp s 5 p).1.given 7 = [[1, 2, 3]] ∧ (recvUdp s 5 p).1.given 5 = [] :=
  ⟨{ start (some 1) with conns := exConns, listens := fun _ => true },
   { stream := true, src := 7, dst := 1, ver := 0, tag := some (5, 0), body := [1, 2, 3],
     wire := [] }, rfl, rfl, by decide, by decide⟩

/-- The server can do the same, although it does not have the keys of the two peers. -/
theorem C222_counterexample_server : ∃ (s : Node) (p : Packet),
    s.conns = exConns ∧ p.tag = some (0, 0) ∧
    (recvUdp s 0 p).1.given 7 = [[1, 2, 3]] ∧ (recvUdp s 0 p).1.given 0 = [] :=
  ⟨{ start (some 1) with conns := exConns, listens := fun _ => true },
   { stream := true, src := 7, dst := 1, ver := 0, tag := some (0, 0), body := [1, 2, 3],
     wire := [] }, rfl, rfl, by decide, by decide⟩

/-- What an honest other end makes says who made it, both from a peer and from the server. -/
theorem C222_craft (me j ver : Nat) (b : Bytes) (hm : me ≠ 0) (hj : j ≠ 0) (k v : Nat) :
    ((craft me j me ver b).tag = some (k, v) → (craft me j me ver b).says k) ∧
    ((craft me 0 0 ver b).tag = some (k, v) → (craft me 0 0 ver b).says k) := by
  constructor
  · intro h
    simp only [craft, Option.some.injEq, Prod.mk.injEq] at h
    obtain ⟨rfl, _⟩ := h
    simp [Packet.says, craft, hm, hj]
  · intro h
    simp only [craft, Option.some.injEq, Prod.mk.injEq] at h
    obtain ⟨rfl, _⟩ := h
    simp [Packet.says, craft]

example : (run (start (some 1)) [.env exConns (fun _ => true), .udp 5 (craft 5 1 5 0 [9]),
    .udp 0 (craft 3 0 0 0 [8])]).given 5 = [[9]] := by decide
example : (run (start (some 1)) [.env exConns (fun _ => true), .udp 5 (craft 5 1 5 0 [9]),
    .udp 0 (craft 3 0 0 0 [8])]).given 0 = [[8]] := by decide

/-! ### C223: a node sends on an unordered channel what its program wrote there -/

/-- When every datagram that comes is addressed to this node, what is handed to the UDP sender of a
connection is exactly what the program wrote. What is missing: datagrams addressed to others. -/
theorem C223_own_partial (me : Option Nat) (as : List Act)
    (h : ∀ k p, .udp k p ∈ as → p.forMe me) (j : Nat) :
    (run (start me) as).udpOut j = wrote j as := by
  have key : ∀ (as : List Act) (s : Node), s.me = me → (∀ k p, .udp k p ∈ as → p.forMe me) →
      (run s as).udpOut j = s.udpOut j ++ wrote j as := by
    intro as
    induction as with
    | nil => intro s _ _; simp [run, wrote]
    | cons a as ih =>
      intro s hm ha
      have hi := ih (step s a) ((me_step s a).trans hm) (fun k p hb => ha k p (by simp [hb]))
      have hst : (step s a).udpOut j = s.udpOut j ++ wrote j [a] := by
        cases a with
        | udp k p =>
          have hl := ha k p (by simp)
          rw [← hm, local_elsewhere] at hl
          have he := eff s k p
          show (recvUdp s k p).1.udpOut j = _
          generalize (recvUdp s k p).1 = t at he
          generalize (recvUdp s k p).2 = r at he
          cases he with
          | proxied v he => rw [hl] at he; exact absurd he (by decide)
          | _ => simp [wrote]
        | tcp p =>
          show (recvTcp s p).1.udpOut j = _
          rw [(tcp_given s p).2.1]; simp [wrote]
        | write i b =>
          simp only [step, write, add, wrote, List.filterMap_cons, List.filterMap_nil]
          by_cases hij : i = j
          · subst hij; simp
          · have : ¬ j = i := fun h => hij h.symm
            simp [hij, this]
        | env c l => simp [step, wrote]
      have e : wrote j (a :: as) = wrote j [a] ++ wrote j as := by
        simp only [wrote, ← List.filterMap_append]; rfl
      rw [e, ← List.append_assoc, ← hst]
      exact hi
  exact key as (start me) rfl h

/-- The property does not hold: any datagram at all, sealed by nobody, whose header names a peer with
a UDP sender is handed to that sender: the node will tag it with the keys it shares with the peer. -/
theorem C223_counterexample (s : Node) (k c t : Nat) (w : Bytes) (v : VConn)
    (hm : s.me = some c) (ht : t ≠ 0) (hc : c ≠ t) (hl : s.listens k = true)
    (hv : s.conns t = some v) (hx : v.sender = some true) :
    ∃ p : Packet, p.tag = none ∧ p.wire = w ∧
      (recvUdp s k p).1.udpOut t = s.udpOut t ++ [w] := by
  refine ⟨{ stream := true, src := 0, dst := t, ver := 0, tag := none, body := [], wire := w },
    rfl, rfl, ?_⟩
  simp [recvUdp, hl, inbound, elsewhere, hm, ht, hc, proxyUdp, hv, hx, add]

/-- From end to end: bytes of somebody without any keys, sent to a UDP socket of node 1, are given to
the program of node 5 as a message of node 1. -/
theorem C223_counterexample_end_to_end (w : Bytes) : ∃ (a b : Node) (p : Packet),
    p.tag = none ∧ a.me = some 1 ∧ b.me = some 5 ∧ b.given 1 = [] ∧
    (recvUdp a 0 p).1.udpOut 5 = [w] ∧
    (recvUdp b 1 (craft 1 5 1 0 w)).1.given 1 = [w] := by
  refine ⟨{ start (some 1) with conns := exConns, listens := fun _ => true },
    { start (some 5) with
      conns := fun j => if j = 1 then some { keys := some [0], sender := some true, chan := .open }
        else none,
      listens := fun _ => true },
    { stream := true, src := 0, dst := 5, ver := 0, tag := none, body := [], wire := w },
    rfl, rfl, rfl, rfl, ?_, ?_⟩
  · simp [recvUdp, inbound, elsewhere, proxyUdp, exConns, start, add]
  · simp [recvUdp, inbound, elsewhere, craft, start, processUdp, opens, takes, resp, add]

example : (run (start (some 1)) [.env exConns (fun _ => true), .write 5 [1], .write 7 [2],
    .udp 5 (craft 5 1 5 0 [9]), .write 5 [3]]).udpOut 5 = [[1], [3]] := by decide
example : (craft 5 1 5 0 [9]).forMe (some 1) := Or.inr (Or.inr rfl)

/-! ### C224: no packet makes the node panic -/

/-- Exactly when a packet makes the task of a UDP socket panic. -/
theorem C224_exact (s : Node) (k : Nat) (p : Packet) :
    (recvUdp s k p).2 = .panic ↔ s.listens k = true ∧ p.stream = true ∧ p.dst ≠ 0 ∧
      (∃ c, s.me = some c ∧ c ≠ p.dst) ∧ ∃ v, s.conns p.dst = some v ∧ v.sender = none := by
  constructor
  · intro h
    have hl : s.listens k = true := by
      refine Classical.byContradiction fun hn => ?_
      simp [recvUdp, hn] at h
    have he := eff s k p
    rw [h] at he
    generalize (recvUdp s k p).1 = t at he
    cases he with
    | panic v he hs hv hx =>
      obtain ⟨h1, h2⟩ := (elsewhere_iff s p).mp he
      exact ⟨hl, hs, h1, h2, v, hv, hx⟩
  · rintro ⟨hl, hs, hd, ⟨c, hm, hc⟩, v, hv, hx⟩
    simp [recvUdp, hl, inbound, hs, elsewhere, hm, hd, hc, proxyUdp, hv, hx]

/-- And the task of a stream. -/
theorem C224_exact_stream (s : Node) (p : Packet) :
    (recvTcp s p).2 = .panic ↔ p.dst ≠ 0 ∧
      (∃ c, s.me = some c ∧ c ≠ p.dst) ∧ ∃ v, s.conns p.dst = some v ∧ v.sender = none := by
  unfold recvTcp proxyTcp
  cases he : elsewhere s p with
  | false =>
    simp only [Bool.false_eq_true, if_false, false_iff, reduceCtorEq]
    rintro ⟨h1, h2, _⟩
    exact absurd ((elsewhere_iff s p).mpr ⟨h1, h2⟩) (by simp [he])
  | true =>
    obtain ⟨h1, h2⟩ := (elsewhere_iff s p).mp he
    cases hv : s.conns p.dst with
    | none => simp
    | some v =>
      cases hx : v.sender with
      | none => simp [hx, h1, h2]
      | some u => simp [hx]

/-- No packet makes a node panic all of whose connections have a sender, a server that relays among
them. What is missing: endpoints with a connection that has no direct stream. -/
theorem C224_none_partial (s : Node) (k : Nat) (p : Packet)
    (h : ∀ j v, s.conns j = some v → v.sender ≠ none) :
    (recvUdp s k p).2 ≠ .panic ∧ (recvTcp s p).2 ≠ .panic := by
  refine ⟨fun hp => ?_, fun hp => ?_⟩
  · obtain ⟨_, _, _, _, v, hv, hx⟩ := (C224_exact s k p).mp hp
    exact h _ v hv hx
  · obtain ⟨_, _, v, hv, hx⟩ := (C224_exact_stream s p).mp hp
    exact h _ v hv hx

/-- The property does not hold: a node that reaches peer 7 through the server only panics when
anybody sends a packet for 7 to it, over UDP or a stream. -/
theorem C224_counterexample : ∃ (s : Node) (p : Packet), p.tag = none ∧ s.me = some 1 ∧
    s.conns 7 = some { keys := some [0], sender := none, chan := .absent } ∧
    (recvUdp s 0 p).2 = .panic ∧ (recvTcp s p).2 = .panic :=
  ⟨{ start (some 1) with
      conns := fun j => if j = 7 then some { keys := some [0], sender := none, chan := .absent }
        else exConns j,
      listens := fun _ => true },
   { stream := true, src := 0, dst := 7, ver := 0, tag := none, body := [], wire := [] },
   rfl, rfl, rfl, by decide, by decide⟩

example : ∀ j v, exConns j = some v → v.sender ≠ none := by
  intro j v h
  simp only [exConns] at h
  split at h
  · cases h; simp
  · exact absurd h (by simp)

/-! ### C225: a datagram that nobody sealed does nothing -/

/-- A datagram addressed to this node that is not sealed under its keys changes nothing at all. What
is missing: datagrams addressed to others, see `C225_counterexample` and C223. -/
theorem C225_unsealed_partial (s : Node) (k : Nat) (p : Packet) (hl : p.forMe s.me)
    (hk : ¬ s.knows k p) : recvUdp s k p = (s, .void) := by
  rw [local_elsewhere] at hl
  have ho : opens s k p = false := by
    cases h : opens s k p with
    | false => rfl
    | true => exact absurd ((opens_iff s k p).mp h) hk
  unfold recvUdp inbound processUdp
  split
  · cases p.stream <;> simp [hl, ho]
  · rfl

/-- One that is sealed, and whose channel is there, is given to the program. -/
theorem C225_sealed (s : Node) (k : Nat) (p : Packet) (hl : p.forMe s.me) (hs : p.stream = true)
    (hi : s.listens k = true) (hk : s.knows k p) (hr : p.says k)
    (v : VConn) (hv : s.conns k = some v) (hc : v.chan = .open) :
    (recvUdp s k p).1.given k = s.given k ++ [p.body] ∧ (recvUdp s k p).1.listens k = true := by
  rw [local_elsewhere] at hl
  have ho := (opens_iff s k p).mpr hk
  have hresp := resp_says p k hr
  obtain ⟨v', vs, hv', hvs, _⟩ := hk
  have : v' = v := by rw [hv] at hv'; exact (Option.some.inj hv').symm
  subst this
  have ht : takes s k = true := by simp [takes, hv, hvs, hc]
  simp [recvUdp, hi, inbound, hs, hl, processUdp, ho, ht, hresp, add]

/-- The UDP task is ended by a packet only if that is sealed and the channel it names is not there. -/
theorem C225_ended (s : Node) (k : Nat) (p : Packet) (h : (recvUdp s k p).2 = .ended) :
    s.knows k p ∧ ∀ v, s.conns (resp p) = some v → v.keys = none ∨ v.chan ≠ .open := by
  have he := eff s k p
  rw [h] at he
  generalize (recvUdp s k p).1 = t at he
  cases he with
  | ended he hs ho ht =>
    refine ⟨ho, fun v hv => ?_⟩
    simp only [takes, hv] at ht
    cases hk : v.keys <;> cases hc : v.chan <;> simp_all

/-- Only a channel that is there, of a connection with keys, is given anything. -/
theorem C225_open (s : Node) (k : Nat) (p : Packet) (j : Nat)
    (h : (recvUdp s k p).1.given j ≠ s.given j) :
    ∃ v, s.conns j = some v ∧ v.keys ≠ none ∧ v.chan = .open := by
  have he := eff s k p
  generalize (recvUdp s k p).1 = t at he h
  generalize (recvUdp s k p).2 = r at he
  cases he with
  | delivered he hs ho ht =>
    have hj : j = resp p := by
      refine Classical.byContradiction fun hn => h ?_
      simp [add, hn]
    subst hj
    unfold takes at ht
    split at ht
    · rename_i v hv
      simp only [Bool.and_eq_true, Option.isSome_iff_ne_none, beq_iff_eq] at ht
      exact ⟨v, hv, ht.1, ht.2⟩
    · cases ht
  | void => exact absurd rfl h
  | proxied v _ _ _ _ => exact absurd rfl h
  | panic v _ _ _ _ => exact absurd rfl h
  | ended _ _ _ _ => exact absurd rfl h

/-- A datagram ends no task but the one that got it, and that one just when the datagram was sealed
and had no channel, or made it panic. -/
theorem C225_alone (s : Node) (k : Nat) (p : Packet) (i : Nat) :
    (recvUdp s k p).1.listens i = s.listens i ∨
      (i = k ∧ (recvUdp s k p).1.listens i = false ∧
        ((recvUdp s k p).2 = .ended ∨ (recvUdp s k p).2 = .panic)) := by
  have he := eff s k p
  generalize (recvUdp s k p).1 = t at he
  generalize (recvUdp s k p).2 = r at he
  cases he with
  | void => exact .inl rfl
  | proxied v _ _ _ _ => exact .inl rfl
  | delivered _ _ _ _ => exact .inl rfl
  | panic v _ _ _ _ =>
    by_cases hi : i = k
    · exact .inr ⟨hi, by simp [off, hi], .inr rfl⟩
    · exact .inl (by simp [off, hi])
  | ended _ _ _ _ =>
    by_cases hi : i = k
    · exact .inr ⟨hi, by simp [off, hi], .inl rfl⟩
    · exact .inl (by simp [off, hi])

/-- The property does not hold: a packet without a seal stops the UDP task of a connection, and every
later datagram of its peer is lost. -/
theorem C225_counterexample : ∃ (s : Node) (p : Packet), p.tag = none ∧
    s.me = some 1 ∧ s.listens 5 = true ∧ s.conns 5 = exConns 5 ∧
    (∀ q, (recvUdp (recvUdp s 5 p).1 5 q).1.given 5 = s.given 5) := by
  refine ⟨{ start (some 1) with
      conns := fun j => if j = 9 then some { keys := some [0], sender := none, chan := .absent }
        else exConns j,
      listens := fun _ => true },
   { stream := true, src := 0, dst := 9, ver := 0, tag := none, body := [], wire := [] },
   rfl, rfl, rfl, by decide, fun q => ?_⟩
  simp [recvUdp, inbound, elsewhere, start, proxyUdp, off]

example : (start (some 1)).knows 5 (craft 5 1 5 0 [9]) = False := by
  simp [Node.knows, start]
example : ({ start (some 1) with conns := exConns } : Node).knows 5 (craft 5 1 5 0 [9]) :=
  ⟨_, [0], rfl, rfl, by decide, rfl⟩

end Verif.Udp

import Verif.Login.Auth
import Verif.Login.Spec
/-!
Panics: counting the packets that can make a session panic.
-/
namespace Verif.Login

def Pend.isSyn : Pend → Bool
  | .synGo _ => true
  | _ => false

def Pend.isConn : Pend → Bool
  | .conn0 .. => true
  | _ => false

structure PanicInv (s : Sess) (n1 n2 : Nat) : Prop where
  nat : s.natSet.toNat + s.pend.countP Pend.isSyn ≤ n1
  ftc : s.ftcSet.toNat + s.pend.countP Pend.isConn ≤ n2
  syn : ∀ p, Pend.synGo p ∈ s.pend → p.cid ≠ 0
  np : s.panicked = false

theorem countP_eraseIdx {α : Type} (f : α → Bool) (l : List α) (i : Nat) (x : α) (h : l[i]? = some x) :
    (l.eraseIdx i).countP f + (f x).toNat = l.countP f := by
  induction l generalizing i with
  | nil => simp at h
  | cons y l ih =>
    cases i with
    | zero =>
      simp only [List.getElem?_cons_zero, Option.some.injEq] at h
      subst h
      simp only [List.eraseIdx_zero, List.tail_cons, List.countP_cons]
      cases f y <;> simp
    | succ i =>
      simp only [List.getElem?_cons_succ] at h
      have := ih i h
      simp only [List.eraseIdx_cons_succ, List.countP_cons]
      omega

theorem PanicInv.same {s s' : Sess} {n1 n2 m1 m2 : Nat} (h : PanicInv s n1 n2) (h1 : n1 ≤ m1) (h2 : n2 ≤ m2)
    (h3 : s'.natSet = s.natSet) (h4 : s'.ftcSet = s.ftcSet) (h5 : s'.pend = s.pend) (h6 : s'.panicked = s.panicked) :
    PanicInv s' m1 m2 := by
  have := h.nat
  have := h.ftc
  refine ⟨?_, ?_, ?_, ?_⟩
  · rw [h3, h5]; omega
  · rw [h4, h5]; omega
  · rw [h5]; exact h.syn
  · rw [h6]; exact h.np

theorem PanicInv.stop {s : Sess} {n1 n2 m1 m2 : Nat} (h : PanicInv s n1 n2) (h1 : n1 ≤ m1) (h2 : n2 ≤ m2) :
    PanicInv s.stop m1 m2 := by
  have := h.nat
  have := h.ftc
  refine ⟨?_, ?_, by simp [Sess.stop], h.np⟩
  · show s.natSet.toNat + 0 ≤ m1; omega
  · show s.ftcSet.toNat + 0 ≤ m2; omega

theorem PanicInv.push {s : Sess} {n1 n2 m1 m2 : Nat} (h : PanicInv s n1 n2) (k : Pend) (h1 : n1 + k.isSyn.toNat ≤ m1)
    (h2 : n2 + k.isConn.toNat ≤ m2) (h3 : ∀ p, k = .synGo p → p.cid ≠ 0) : PanicInv (s.suspend k) m1 m2 := by
  have := h.nat
  have := h.ftc
  refine ⟨?_, ?_, ?_, h.np⟩
  · show s.natSet.toNat + (s.pend ++ [k]).countP _ ≤ m1
    simp only [List.countP_append, List.countP_cons, List.countP_nil]
    cases hk : k.isSyn <;> simp [hk] at h1 ⊢ <;> omega
  · show s.ftcSet.toNat + (s.pend ++ [k]).countP _ ≤ m2
    simp only [List.countP_append, List.countP_cons, List.countP_nil]
    cases hk : k.isConn <;> simp [hk] at h2 ⊢ <;> omega
  · intro p hp
    simp only [Sess.suspend, List.mem_append, List.mem_singleton] at hp
    rcases hp with hp | hp
    · exact h.syn p hp
    · exact h3 p hp.symm

theorem PanicInv.recv {P : Prims} {st : Store} {s : Sess} {p : Pkt} {o : Oracle} {nk ne n1 n2 : Nat} {r : Res}
    (h : PanicInv s n1 n2) (hl : SessLoc P s) (b1 : n1 + p.body.isSyn.toNat ≤ 1) (b2 : n2 + p.body.isConn.toNat ≤ 1)
    (b3 : ∀ e u, p.body = .syn e u → p.cid ≠ 0) (hr : RecvCase st s p o nk ne r) :
    PanicInv r.s (n1 + p.body.isSyn.toNat) (n2 + p.body.isConn.toNat) := by
  have e1 : n1 ≤ n1 + p.body.isSyn.toNat := by omega
  have e2 : n2 ≤ n2 + p.body.isConn.toNat := by omega
  have adopt : ∀ e k, p.body = .synAck e k → ∀ s' : Sess, s'.natSet = true → s.natSet = false → s'.ftcSet = s.ftcSet →
      s'.pend = s.pend → s'.panicked = s.panicked →
      PanicInv s' (n1 + p.body.isSyn.toNat) (n2 + p.body.isConn.toNat) := by
    intro e k hb s' h1 h2 h3 h4 h5
    have ha := h.nat
    have hb' := h.ftc
    refine ⟨?_, ?_, ?_, ?_⟩
    · rw [h1, h4]
      rw [h2] at ha
      rw [hb]
      simp only [Body.isSyn, Bool.toNat_true, Bool.toNat_false] at ha ⊢
      omega
    · rw [h3, h4]; omega
    · rw [h4]; exact h.syn
    · rw [h5]; exact h.np
  cases hr with
  | drop => exact h.same e1 e2 rfl rfl rfl rfl
  | stop => exact h.stop e1 e2
  | panicNat e k hb hn =>
    have := h.nat
    rw [hn] at this
    rw [hb] at b1
    simp only [Body.isSyn, Bool.toNat_true] at b1 this
    omega
  | panicStatic a e k hb hc hs => exact absurd hs (hl.cn a hc).2
  | panicFtc hb hf =>
    have := h.ftc
    rw [hf] at this
    rw [hb] at b2
    simp only [Body.isConn, Bool.toNat_true] at b2 this
    omega
  | reg0 => exact h.push _ e1 e2 (by simp)
  | reg1 eph own key cid hb he =>
    exact PanicInv.push (s := { s with regEph := none }) (h.same e1 e2 rfl rfl rfl rfl)
      (.reg1 own cid eph key s.creds p.ticket) (Nat.le_refl _) (Nat.le_refl _) (by simp)
  | reg2 => exact h.push _ e1 e2 (by simp)
  | regOk => exact h.push _ e1 e2 (by simp)
  | syn e u hb =>
    refine h.push _ ?_ e2 ?_
    · rw [hb]; exact Nat.le_refl _
    · intro q hq
      cases hq
      exact b3 e u hb
  | adoptTcp a r0 own key cid hb hc hpe hs ho hn hpv => exact adopt _ _ hb _ rfl hn rfl rfl rfl
  | adoptQuic a r0 own key cid hb hc hpe hs ho hn hpv => exact adopt _ _ hb _ rfl hn rfl rfl rfl
  | adoptUdp a r0 own key cid hb hc hpe hs ho hn hpv =>
    exact (adopt _ _ hb { s with preEph := none, natSet := true, ratchet := some ⟨key, true, cid⟩ } rfl hn rfl rfl rfl).push _
      (by simp [Pend.isSyn]) (by simp [Pend.isConn]) (by simp)
  | punch => exact h.push _ e1 e2 (by simp)
  | proceed => exact h.same e1 e2 rfl rfl rfl rfl
  | finalStop u ps =>
    exact PanicInv.stop (s := { s with preOk := true, udp := u, preStage := ps })
      (h.same (Nat.le_refl _) (Nat.le_refl _) rfl rfl rfl rfl) e1 e2
  | beginNone => exact h.same e1 e2 rfl rfl rfl rfl
  | begin => exact h.same e1 e2 rfl rfl rfl rfl
  | conn0 r a c hb hr ha ho hs hp =>
    refine h.push _ e1 ?_ (by simp)
    rw [hb]; exact Nat.le_refl _
  | connFailure =>
    exact PanicInv.stop (s := { s with cid := none })
      (h.same (Nat.le_refl _) (Nat.le_refl _) rfl rfl rfl rfl) e1 e2
  | connOk r a hb hr ha ho hf hs hok hp =>
    have ha := h.nat
    have hb' := h.ftc
    refine ⟨?_, ?_, h.syn, h.np⟩
    · show s.natSet.toNat + s.pend.countP _ ≤ _; omega
    · show 1 + s.pend.countP _ ≤ _
      rw [hf] at hb'
      rw [hb]
      simp only [Body.isConn, Bool.toNat_true, Bool.toNat_false] at hb' ⊢
      omega
  | connStop r hb hr hf hs =>
    have ha := h.nat
    have hb' := h.ftc
    refine ⟨?_, ?_, by simp [Sess.stop], h.np⟩
    · show s.natSet.toNat + 0 ≤ _; omega
    · show 1 + 0 ≤ _
      rw [hb]
      simp [Body.isConn]
  | connLate hb hf =>
    have ha := h.nat
    have hb' := h.ftc
    refine ⟨?_, ?_, h.syn, h.np⟩
    · show s.natSet.toNat + s.pend.countP _ ≤ _; omega
    · show 1 + s.pend.countP _ ≤ _
      rw [hf] at hb'
      rw [hb]
      simp only [Body.isConn, Bool.toNat_true, Bool.toNat_false] at hb' ⊢
      omega
  | ack => exact h.same e1 e2 rfl rfl rfl rfl

theorem PanicInv.resume {P : Prims} {st : Store} {s : Sess} {k : Pend} {i : Nat} {o : Oracle} {nk ne n1 n2 : Nat} {r : Res}
    (h : PanicInv s n1 n2) (hst : StoreOK st) (b1 : n1 ≤ 1) (b2 : n2 ≤ 1) (hk : s.pend[i]? = some k)
    (hr : ResumeCase P st { s with pend := s.pend.eraseIdx i } o nk ne k r) : PanicInv r.s n1 n2 := by
  have ha := h.nat
  have hb := h.ftc
  have c1 := countP_eraseIdx Pend.isSyn _ _ _ hk
  have c2 := countP_eraseIdx Pend.isConn _ _ _ hk
  have hmem : k ∈ s.pend := List.mem_of_getElem? hk
  have h' : PanicInv { s with pend := s.pend.eraseIdx i } n1 n2 := by
    refine ⟨?_, ?_, ?_, h.np⟩
    · show s.natSet.toNat + (s.pend.eraseIdx i).countP _ ≤ _; omega
    · show s.ftcSet.toNat + (s.pend.eraseIdx i).countP _ ≤ _; omega
    · intro p hp
      exact h.syn p (List.mem_of_mem_eraseIdx hp)
  have l1 := Nat.le_refl n1
  have l2 := Nat.le_refl n2
  cases hr with
  | reg0 => exact h'.same l1 l2 rfl rfl rfl rfl
  | reg0Late => exact h'
  | reg1 => exact h'.same l1 l2 rfl rfl rfl rfl
  | drop => exact h'
  | stop => exact h'.stop l1 l2
  | reg2 => exact h'
  | reg2Fail => exact h'
  | regOk => exact h'.same l1 l2 rfl rfl rfl rfl
  | regDone => exact h'.stop l1 l2
  | synHalt => exact h'.stop l1 l2
  | synStatic p e u a hb' hg hs =>
    have h1 := hst _ _ hg
    exact absurd (h1.1.symm.trans (h1.2.1 hs)) (h.syn p hmem)
  | synNat p e u hb' hn =>
    rw [show s.natSet = true from hn] at ha
    simp only [Pend.isSyn, Bool.toNat_true] at c1 ha
    omega
  | synOk p e udp a r0 hb' hg hs ho hn =>
    refine ⟨?_, ?_, h'.syn, h.np⟩
    · show 1 + (s.pend.eraseIdx i).countP _ ≤ _
      rw [show s.natSet = false from hn] at ha
      simp only [Pend.isSyn, Bool.toNat_true, Bool.toNat_false] at c1 ha
      omega
    · show s.ftcSet.toNat + (s.pend.eraseIdx i).countP _ ≤ _; omega
  | punchInit => exact h'.same l1 l2 rfl rfl rfl rfl
  | punchResp => exact h'.same l1 l2 rfl rfl rfl rfl
  | connPanic r a c cid t hf =>
    rw [show s.ftcSet = true from hf] at hb
    simp only [Pend.isConn, Bool.toNat_true] at c2 hb
    omega
  | connStop r a c cid t cs hf hc =>
    rw [show s.ftcSet = false from hf] at hb
    simp only [Pend.isConn, Bool.toNat_true, Bool.toNat_false] at c2 hb
    refine ⟨?_, ?_, by simp [Sess.stop], h.np⟩
    · show s.natSet.toNat + 0 ≤ _; omega
    · show 1 + 0 ≤ _; omega
  | connOk r a c cid t hv hf ht =>
    rw [show s.ftcSet = false from hf] at hb
    simp only [Pend.isConn, Bool.toNat_true, Bool.toNat_false] at c2 hb
    refine PanicInv.push (s := { s with pend := s.pend.eraseIdx i, ftcSet := true, connStage := .success }) (n1 := n1)
      (n2 := n2) ⟨?_, ?_, h'.syn, h.np⟩ _ (by simp [Pend.isSyn]) (by simp [Pend.isConn]) (by simp)
    · show s.natSet.toNat + (s.pend.eraseIdx i).countP _ ≤ _; omega
    · show 1 + (s.pend.eraseIdx i).countP _ ≤ _; omega
  | connFail => exact h'
  | connFin => exact h'.same l1 l2 rfl rfl rfl rfl

theorem deliveries_append (sid : Nat) (f : Body → Bool) (evs : List Ev) (ev : Ev) :
    deliveries sid f (evs ++ [ev]) = deliveries sid f evs + deliveries sid f [ev] := by
  simp [deliveries, List.countP_append]

theorem Run.panicInv {P : Prims} {evs : List Ev} {w : World} (h : Run P evs w) (sid : Nat) :
    deliveries sid Body.isSyn evs ≤ 1 → deliveries sid Body.isConn evs ≤ 1 →
    (∀ p o, Ev.recv sid p o ∈ evs → ∀ e u, p.body = .syn e u → p.cid ≠ 0) →
    ∀ s : Sess, w.sess[sid]? = some s →
      PanicInv s (deliveries sid Body.isSyn evs) (deliveries sid Body.isConn evs) := by
  induction h with
  | init => intro _ _ _ s hs; simp [World.init] at hs
  | @step evs w ev hr ha ih =>
    intro d1 d2 d3 s hs
    rw [deliveries_append] at d1 d2 ⊢
    rw [deliveries_append]
    have ih' := ih (by omega) (by omega) (fun p o hm => d3 p o (List.mem_append_left _ hm))
    have old : ∀ s : Sess, w.sess[sid]? = some s → PanicInv s
        (deliveries sid Body.isSyn evs + deliveries sid Body.isSyn [ev])
        (deliveries sid Body.isConn evs + deliveries sid Body.isConn [ev]) :=
      fun s hs => (ih' s hs).same (by omega) (by omega) rfl rfl rfl rfl
    have hc := step_cases P _ _ ha
    generalize hw : w.step P ev = w' at hs hc
    clear hw
    cases hc with
    | store _ _ h1 h2 h3 h4 h5 hst => rw [h1] at hs; exact old s hs
    | steal n hn => exact old s hs
    | accept node =>
      rcases getElem?_append_cases hs with hs | ⟨rfl, rfl⟩
      · exact old s hs
      · exact ⟨by simp, by simp, by simp, rfl⟩
    | login node cid pw t udp a r hg hs' =>
      rcases getElem?_append_cases hs with hs | ⟨rfl, rfl⟩
      · exact old s hs
      · exact ⟨by simp, by simp, by simp, rfl⟩
    | transient node user t udp =>
      rcases getElem?_append_cases hs with hs | ⟨rfl, rfl⟩
      · exact old s hs
      · exact ⟨by simp, by simp, by simp, rfl⟩
    | register node full user pw t salt =>
      rcases getElem?_append_cases hs with hs | ⟨rfl, rfl⟩
      · exact old s hs
      · exact ⟨by simp, by simp, by simp, rfl⟩
    | recv sid' p o s0 r hs0 ho hp hrc =>
      rcases getElem?_set_cases hs with ⟨rfl, rfl⟩ | ⟨_, hs⟩
      · have e1 : deliveries sid Body.isSyn [Ev.recv sid p o] = p.body.isSyn.toNat := by
          simp only [deliveries, List.countP_cons, List.countP_nil]
          cases p.body.isSyn <;> simp
        have e2 : deliveries sid Body.isConn [Ev.recv sid p o] = p.body.isConn.toNat := by
          simp only [deliveries, List.countP_cons, List.countP_nil]
          cases p.body.isConn <;> simp
        rw [e1] at d1 ⊢
        rw [e2] at d2 ⊢
        exact (ih' s0 hs0).recv (hr.locInv.sess _ _ hs0) d1 d2 (d3 p o (by simp)) hrc
      · exact old s hs
    | resume sid' i o s0 k r hs0 ho hpk hrc =>
      rcases getElem?_set_cases hs with ⟨rfl, rfl⟩ | ⟨_, hs⟩
      · exact (ih' s0 hs0).resume (hr.locInv.store _) (by omega) (by omega) hpk hrc |>.same (by omega) (by omega)
          rfl rfl rfl rfl
      · exact old s hs
    | stop sid' s0 hs0 =>
      rcases getElem?_set_cases hs with ⟨rfl, rfl⟩ | ⟨_, hs⟩
      · exact (ih' s0 hs0).stop (by omega) (by omega)
      · exact old s hs

end Verif.Login

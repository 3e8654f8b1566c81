/-
Properties of the key exchange of two peers: secrecy and authentication against the relay, consent, panics, agreement.
-/
import Verif.PeerKex.Simple
import Verif.PeerKex.Ids
import Verif.PeerKex.Asks

namespace Verif.PeerKex

/-! ### C186: the relay does not know the keys -/

/-- **C186, partial.** From any state in which client `i` has no exchange under way and has entered a password the relay
does not know: as long as all further passwords it enters are unknown to the relay, no connection it makes has a key the
relay can compute, whatever the relay sends.

Missing: a first password that is entered after the relay has begun (`C186_counterexample_before`), and passwords the
relay knows, among them none (`C186_counterexample_middle`). -/
theorem C186_secret_partial (known : Nat → Bool) (i : Side) (w : Hostile) (p : Nat) (hp : (w.slot i).psk = some p)
    (hu : known p = false) (hk : (w.slot i).kem = none) (hm : (w.slot i).made = []) (acts : List HAct)
    (hf : ∀ q m, HAct.ask i q m ∈ acts → known q = false) (c : Key × Nat)
    (hc : c ∈ ((hrun known w acts).slot i).made) : ¬ knows known c.1 := by
  have h : Secret known ((hrun known w acts).slot i) := by
    refine hrun_slot i (Secret known) (fun q => known q = false) ?_ ?_ ?_ acts w ?_ hf
    · exact fun s p m hp h => secret_ask s p m hp h
    · exact fun s n m h => secret_handle s n m h
    · exact fun s s' out hi h => secret_idle s s' out hi h
    · exact ⟨⟨p, hp, hu⟩, by simp [hk], by simp [hm]⟩
  intro hkn
  have := h.2.2 c hc
  rw [hkn.2] at this; cases this

/-- Password 7 is unknown, all others are known. -/
def known7 : Nat → Bool := fun p => p != 7

/-- The hypotheses of `C186_secret_partial` are met, and a connection is made in the middle of what the relay does. -/
example :
    let w := hrun known7 (hostile 1 2) [.ask .a 7 .request, .ask .b 7 .accept]
    let acts := [HAct.say .a .accept, .say .b (.stage0 ⟨.other, 9⟩ 5), .say .b (.stage0 ⟨.a, 3⟩ 3),
      .say .a (.stage1 ⟨.a, 3⟩ ⟨.b, 5⟩ 7 3), .say .b .stage2]
    w.a.psk = some 7 ∧ w.a.kem = none ∧ w.a.made = [] ∧
      (hrun known7 w acts).a.made = [(⟨⟨.a, 3⟩, ⟨.b, 5⟩, 7⟩, 3)] ∧
      (hrun known7 w acts).b.made = [(⟨⟨.a, 3⟩, ⟨.b, 5⟩, 7⟩, 3)] := by decide +kernel

/-- With no password (or one that is known) the relay stands in the middle: both connect, with keys it can compute. -/
theorem C186_counterexample_middle :
    let w := hrun known7 (hostile 1 2) [.ask .a 0 .request, .ask .b 0 .accept, .say .a .accept,
      .say .a (.stage1 ⟨.a, 3⟩ ⟨.other, 8⟩ 0 3), .say .b (.stage0 ⟨.other, 9⟩ 3), .say .b .stage2]
    w.a.made = [(⟨⟨.a, 3⟩, ⟨.other, 8⟩, 0⟩, 3)] ∧ w.b.made = [(⟨⟨.other, 9⟩, ⟨.b, 5⟩, 0⟩, 3)] ∧
      knows known7 ⟨⟨.a, 3⟩, ⟨.other, 8⟩, 0⟩ ∧ knows known7 ⟨⟨.other, 9⟩, ⟨.b, 5⟩, 0⟩ := by
  refine ⟨by decide +kernel, by decide +kernel, ⟨.inr rfl, by decide⟩, ⟨.inl rfl, by decide⟩⟩

/-- A secret password does not help if the relay sends its `Stage0` before the user enters it: the exchange is made with
the empty password, and stands when the user has entered theirs. -/
theorem C186_counterexample_before :
    let w := hrun known7 (hostile 1 2) [.say .b (.stage0 ⟨.other, 9⟩ 3), .ask .b 7 .request, .say .b .stage2]
    w.b.psk = some 7 ∧ w.b.made = [(⟨⟨.other, 9⟩, ⟨.b, 1⟩, 0⟩, 3)] ∧ knows known7 ⟨⟨.other, 9⟩, ⟨.b, 1⟩, 0⟩ := by
  refine ⟨by decide +kernel, by decide +kernel, ⟨.inl rfl, by decide⟩⟩

/-! ### C187: the connection is shared with the peer -/

/-- **C187, partial.** In every run with a hostile relay: when `Stage1` makes a client its connection under a password
the relay does not know, the encapsulation in the key was made by the peer, who sent it for this key pair under this
password; in particular nobody's message was turned back to its sender.

Missing: the side of Bob (`C187_counterexample_bob`). -/
theorem C187_alice_partial (known : Nat → Bool) (ca cb : Nat) (acts : List HAct) (i : Side) (x y : Nonce) (psk id : Nat)
    (hu : known psk = false)
    (hm : ((hstep known (hrun known (hostile ca cb) acts) (.say i (.stage1 x y psk id))).slot i).made ≠
      ((hrun known (hostile ca cb) acts).slot i).made) :
    x.who = i.who ∧ y.who = i.flip.who ∧
      (∃ d, Msg.stage1 x y psk d ∈ (hrun known (hostile ca cb) acts).sent) ∧
      ∃ d, ((hstep known (hrun known (hostile ca cb) acts) (.say i (.stage1 x y psk id))).slot i).made =
        (⟨x, y, psk⟩, d) :: ((hrun known (hostile ca cb) acts).slot i).made := by
  have h := auth_run (known := known) acts _ (auth_start ca cb)
  generalize hrun known (hostile ca cb) acts = w at h hm ⊢
  simp only [hstep] at hm ⊢
  split at hm
  · rename_i hf
    simp only [hf, if_true]
    rw [did_slot_same] at hm ⊢
    have hd := did_handle (w.slot i) w.next (.stage1 x y psk id)
    generalize (handle (w.slot i) w.next (.stage1 x y psk id)).1 = s' at hd hm ⊢
    generalize (handle (w.slot i) w.next (.stage1 x y psk id)).2 = out at hd
    cases hd with
    | other _ _ _ h1 h2 h3 h4 h5 h6 => exact absurd h3 hm
    | stage1 _ _ _ _ k _ h1 h2 h3 h4 h5 h6 h7 h8 h9 =>
      obtain ⟨q1, q2, q3⟩ := h.alice i k x h3 h4
      have hs : seen1 w.sent x y psk = true := by
        simp only [forge, Bool.or_eq_true, Bool.and_eq_true] at hf
        rcases hf with ⟨-, q⟩ | q
        · rw [hu] at q; cases q
        · exact q
      obtain ⟨d, hs⟩ := seen1_iff.1 hs
      have n1 := (h.sent1 _ _ _ _ hs).2
      have n2 := q3 _ _ _ hs
      refine ⟨q1, ?_, ⟨d, hs⟩, ⟨_, h7⟩⟩
      revert n1 n2
      cases i <;> cases y.who <;> simp [Side.who, Side.flip]
  · exact absurd rfl hm

example :
    let w := hrun known7 (hostile 1 2) [.ask .a 7 .request, .ask .b 7 .accept, .say .a .accept,
      .say .b (.stage0 ⟨.a, 3⟩ 3)]
    (hstep known7 w (.say .a (.stage1 ⟨.a, 3⟩ ⟨.b, 4⟩ 7 3))).a.made = [(⟨⟨.a, 3⟩, ⟨.b, 4⟩, 7⟩, 3)] := by
  decide +kernel

/-- Bob gets a connection nobody shares, under a password nobody else knows: `Stage2` proves nothing. -/
theorem C187_counterexample_bob :
    let w := hrun known7 (hostile 1 2) [.ask .b 7 .accept, .say .b (.stage0 ⟨.other, 9⟩ 3), .say .b .stage2,
      .punched .b 3 false]
    w.b.told = [.channel ⟨⟨.other, 9⟩, ⟨.b, 2⟩, 7⟩ 3] ∧ w.a.made = [] ∧ w.a.psk = none ∧ known7 7 = false := by
  decide +kernel

/-! ### C188: no connection without the consent of the user -/

/-- **C188, partial.** Whatever the relay sends: a client whose user has asked and accepted nothing makes no connection.

Missing: consent to each connection after the first (`C188_counterexample_again`). -/
theorem C188_asked_partial (known : Nat → Bool) (ca cb : Nat) (acts : List HAct) (i : Side)
    (h : ∀ p m, HAct.ask i p m ∉ acts) : ((hrun known (hostile ca cb) acts).slot i).made = [] := by
  have : (fun s : Slot => s.psk = none ∧ s.made = []) ((hrun known (hostile ca cb) acts).slot i) := by
    refine hrun_slot i (fun s : Slot => s.psk = none ∧ s.made = []) (fun _ => False) (fun _ _ _ hf => hf.elim) ?_ ?_ acts _ ?_ (fun p m hm => h p m hm)
    · rintro s n m ⟨h1, h2⟩
      have hd := did_handle s n m
      generalize (handle s n m).1 = s' at hd ⊢
      generalize (handle s n m).2 = out at hd
      cases hd with
      | other _ _ _ q1 q2 q3 => exact ⟨q1.trans h1, q3.trans h2⟩
      | accept _ q1 q2 q3 => exact ⟨q1.trans h1, q3.trans h2⟩
      | stage0 _ _ _ q1 q2 q3 => exact ⟨q1.trans h1, q3.trans h2⟩
      | stage1 _ _ _ _ _ _ _ _ _ _ _ hs => rw [h1] at hs; cases hs
      | stage2 _ _ _ _ _ _ _ _ hs => rw [h1] at hs; cases hs
    · rintro s s' out hi ⟨h1, h2⟩
      exact ⟨hi.psk.trans h1, hi.made.trans h2⟩
    · cases i <;> exact ⟨rfl, rfl⟩
  exact this.2

/-- Without any ask the relay drives client `b` as far as it can (here into the panic of C189), and no connection is
made. -/
example : (hrun known7 (hostile 1 2) [.say .b .request, .say .b .accept, .say .b (.stage0 ⟨.other, 9⟩ 3),
    .say .b .stage2]).b.made = [] := by decide +kernel

/-- The user accepts once.  After the end of that connection the other side makes a second one, and its channel is
handed out, without a word of the user: the session password is still there, and that is all that is asked for. -/
theorem C188_counterexample_again :
    let acts := [HAct.ask .b 0 .accept, .say .b (.stage0 ⟨.other, 9⟩ 3), .say .b .stage2, .punched .b 3 false,
      .say .b (.disconnect none), .say .b (.stage0 ⟨.other, 10⟩ 4), .say .b .stage2, .punched .b 7 false]
    (acts.filter (HAct.asks .b)).length = 1 ∧
      (hrun known7 (hostile 1 2) acts).b.told =
        [.channel ⟨⟨.other, 9⟩, ⟨.b, 2⟩, 0⟩ 3, .disconnected, .channel ⟨⟨.other, 10⟩, ⟨.b, 6⟩, 0⟩ 4] := by
  decide +kernel

/-! ### C189: no signal makes a client panic -/

/-- **C189, partial.** Once the user has entered a password for the peer, nothing the relay sends makes the client panic.

Missing: before that (`C189_counterexample`). -/
theorem C189_entered_partial (known : Nat → Bool) (w : Hostile) (i : Side) (hp : (w.slot i).psk.isSome = true)
    (hn : (w.slot i).panicked = false) (acts : List HAct) : ((hrun known w acts).slot i).panicked = false := by
  have : (fun s : Slot => s.psk.isSome = true ∧ s.panicked = false) ((hrun known w acts).slot i) := by
    refine hrun_slot i (fun s : Slot => s.psk.isSome = true ∧ s.panicked = false) (fun _ => True) ?_ ?_ ?_ acts _ ⟨hp, hn⟩ (fun _ _ _ => trivial)
    · rintro s p m - ⟨h1, h2⟩
      rcases ask_spec s p m with ⟨e, -, -⟩ | ⟨e, -, -⟩
      · rw [e]; exact ⟨h1, h2⟩
      · rw [e]; exact ⟨rfl, h2⟩
    · rintro s n m ⟨h1, h2⟩
      have hd := did_handle s n m
      generalize (handle s n m).1 = s' at hd ⊢
      generalize (handle s n m).2 = out at hd
      cases hd with
      | other _ _ _ q1 q2 q3 q4 q5 =>
        refine ⟨by rw [q1]; exact h1, ?_⟩
        cases e : s'.panicked with
        | false => rfl
        | true =>
          rcases q5 e with q | q
          · rw [h2] at q; cases q
          · rw [q] at h1; cases h1
      | accept _ q1 q2 q3 q4 q5 => exact ⟨by rw [q1]; exact h1, q5.trans h2⟩
      | stage0 _ _ _ q1 q2 q3 q4 q5 => exact ⟨by rw [q1]; exact h1, q5.trans h2⟩
      | stage1 _ _ _ _ _ _ q1 _ _ _ _ _ _ _ q5 => exact ⟨by rw [q1]; exact h1, q5.trans h2⟩
      | stage2 _ _ _ _ q1 _ _ _ _ _ _ q5 => exact ⟨by rw [q1]; exact h1, q5.trans h2⟩
    · rintro s s' out hi ⟨h1, h2⟩
      exact ⟨by rw [hi.psk]; exact h1, hi.panicked.trans h2⟩
  exact this.2

example : (hrun known7 (hostile 1 2) [.ask .b 0 .accept]).b.psk.isSome = true := by decide +kernel

/-- `Stage0` and `Stage2` to a client whose user has never dealt with the peer. -/
theorem C189_counterexample (known : Nat → Bool) (ca cb : Nat) (x : Nonce) (hx : x.who = .other) (id : Nat) :
    (hrun known (hostile ca cb) [.say .b (.stage0 x id), .say .b .stage2]).b.panicked = true := by
  simp [hrun, hstep, forge, hx, hostile, Hostile.slot, Hostile.did, Hostile.setSlot, handle, onStage0, onStage2, setKem,
    cancel, Slot.punch, create]

/-! ### C190: both ends have the same connection -/

/-- Nothing is under way. -/
def World.rest (w : World) : Prop :=
  w.upA = [] ∧ w.upB = [] ∧ w.downA = [] ∧ w.downB = [] ∧ w.a.punches = [] ∧ w.b.punches = []

/-- **C190, partial.** One user asks once, the other accepts once; signals may overtake each other.  At no time do the
two ends have different connections, and none exists under different passwords; when the request was accepted and nothing
is under way, either the passwords were the same and both ends have the same active connection and its channel, or they
were not, and the asking user is told of the failure.

Missing: both users asking (`C190_counterexample_…`). -/
theorem C190_simple_partial (ca cb pa pb : Nat) (l l' : List Act) (hq : ∀ t ∈ l, t.quiet = true)
    (hq' : ∀ t ∈ l', t.quiet = true) :
    let w := run (start ca cb) (.connect .a pa :: l ++ .respond .b pb :: l')
    (∀ c ∈ w.a.made, ∀ d ∈ w.b.made, c = d) ∧
    (pa ≠ pb → w.a.made = [] ∧ w.b.made = []) ∧
    (w.rest → w.b.psk.isSome →
      (pa = pb ∧ ∃ k id, w.a.vconn = some ⟨k, id, true⟩ ∧ w.b.vconn = some ⟨k, id, true⟩ ∧
        w.a.told = [.channel k id] ∧ w.b.told = [.request, .channel k id]) ∨
      (pa ≠ pb ∧ w.a.told = [.failed])) := by
  intro w
  have h : Seg1 ca cb pa w ∨ Seg2 ca cb pa pb w := simple_worlds ca cb pa pb l l' hq hq'
  generalize w = w at h
  rcases h with h | h
  · cases h <;> simp [sa1, sb0, sb1, World.rest]
  · cases h with
    | p10 h s hs => subst h; rcases hs with rfl | rfl <;> simp [sa3, sa4, sb3, World.rest]
    | p11 h s hs => subst h; rcases hs with rfl | rfl <;> simp [sa3, sa4, sb3, World.rest]
    | p12 h s s' hs hs' =>
      subst h
      rcases hs with rfl | rfl <;> rcases hs' with rfl | rfl <;> simp [sa3, sa4, sb4, sb5, World.rest]
    | f10 h => simp [saf, sb3, World.rest]
    | f11 h => simp [saf, sb3, World.rest, h]
    | _ => simp [sa1, sa2, sb2, sb3, World.rest]

/-- The signals one after the other. -/
def allThrough : List Act :=
  [.serve .b 0, .deliver .a 0, .serve .a 0, .deliver .b 0, .serve .b 0, .deliver .a 0, .serve .a 0, .deliver .b 0,
    .punched .a 4 false, .punched .b 5 false]

/-- Such a run comes to its rest, with connections if the passwords are the same. -/
theorem C190_progress (ca cb p : Nat) :
    (run (start ca cb) (.connect .a p :: [.serve .a 0, .deliver .b 0] ++ .respond .b p :: allThrough)).rest ∧
      (run (start ca cb) (.connect .a p :: [.serve .a 0, .deliver .b 0] ++ .respond .b p :: allThrough)).a.made =
        [(theKey p, 2)] := by
  simp [run, step, allThrough, start, World.rest, World.did, World.slot, World.setSlot, World.setUp, World.setDown,
    World.up, World.down, World.post, World.setPost, World.send, relay, handle, ask, onRequest, onAccept, onStage0,
    onStage1, onStage2, setKem, cancel, Slot.punch, create, punched, tell, theKey, Side.flip]

/-- Both users ask and both accept, every queue in order: both ends come to rest with active connections of different
keys. -/
theorem C190_counterexample_differ :
    let w := run (start 1 2) [.connect .a 7, .serve .a 0, .deliver .b 0, .respond .b 7, .serve .b 0, .deliver .a 0,
      .serve .a 0, .deliver .b 0, .connect .b 7, .serve .b 0, .serve .b 0, .deliver .a 0, .deliver .a 0, .serve .a 0,
      .deliver .b 0, .respond .a 7, .serve .a 0, .deliver .b 0, .punched .b 6 false, .serve .b 0, .deliver .a 0,
      .serve .a 0, .deliver .b 0]
    w.a.vconn.map (·.active) = some true ∧ w.b.vconn.map (·.active) = some true ∧
      w.a.vconn.map (·.key) ≠ w.b.vconn.map (·.key) := by decide +kernel

/-- The same, and only one end has a connection when nothing is under way. -/
theorem C190_counterexample_one_sided :
    let w := run (start 1 2) [.connect .b 7, .serve .b 0, .deliver .a 0, .respond .a 7, .serve .a 0, .deliver .b 0,
      .serve .b 0, .deliver .a 0, .serve .a 0, .connect .a 7, .serve .a 0, .deliver .b 0, .serve .b 0, .deliver .b 0,
      .respond .b 7, .deliver .a 0, .punched .b 4 false, .serve .b 0, .deliver .a 0, .serve .a 0, .punched .a 6 false,
      .deliver .b 0, .serve .b 0, .serve .a 0, .deliver .b 0, .deliver .a 0, .serve .a 0, .deliver .b 0,
      .punched .a 10 false, .deliver .a 0, .punched .b 11 false]
    (w.a.vconn.any (·.active)) ≠ (w.b.vconn.any (·.active)) := by decide +kernel

/-- Both users ask once and nobody needs to accept; if signals overtake each other, one end may have a connection the
other has not. -/
theorem C190_counterexample_reordered :
    let w := run (start 1 2) [.connect .b 7, .serve .b 0, .connect .a 7, .serve .a 0, .deliver .b 0, .serve .b 0,
      .serve .a 1, .deliver .a 1, .deliver .a 0, .serve .a 0, .deliver .b 0, .serve .b 0, .deliver .a 0, .serve .a 0,
      .punched .b 4 false, .deliver .a 0]
    (w.a.vconn.any (·.active)) ≠ (w.b.vconn.any (·.active)) := by decide +kernel

/-! ### C191: both users ask at the same time -/

/-- **C191.** Both users ask once, at any times, and nobody has to accept; every queue stays in order.  At no time does
an end make a second connection or one that differs from the other's, and none is made under different passwords.  If the
passwords are the same and nothing is under way, both have the same active connection and its channel.  (The names of the
ends are arbitrary: `a` is the one with the lower cid.) -/
theorem C191_simultaneous (ca cb pa pb : Nat) (hlt : ca < cb) (acts : List Act)
    (hi : ∀ t ∈ acts, t.inOrder pa pb = true) (h1 : ∀ i, acts.countP (Act.connects i) ≤ 1) :
    let w := run (start ca cb) acts
    (w.a.made.length ≤ 1 ∧ w.b.made.length ≤ 1) ∧ (∀ c ∈ w.a.made, ∀ d ∈ w.b.made, c = d) ∧
    (pa ≠ pb → w.a.made = [] ∧ w.b.made = []) ∧
    (pa = pb → w.rest → w.a.psk.isSome → w.b.psk.isSome → ∃ k id, w.a.vconn = some ⟨k, id, true⟩ ∧
      w.b.vconn = some ⟨k, id, true⟩ ∧ Ev.channel k id ∈ w.a.told ∧ Ev.channel k id ∈ w.b.told) := by
  intro w
  obtain ⟨f, v, hg, hw⟩ := asks_worlds ca cb pa pb hlt acts hi h1
  have hw : w = v.ren f ca cb := hw
  rw [hw]
  simp only [good, Bool.and_eq_true, decide_eq_true_eq] at hg
  obtain ⟨⟨⟨⟨-, g1⟩, g2, g3⟩, g4⟩, g5⟩ := hg
  refine ⟨⟨by simpa [World.ren, Slot.ren] using g2, by simpa [World.ren, Slot.ren] using g3⟩, ?_, ?_, ?_⟩
  · intro c hc d hd
    simp only [World.ren, Slot.ren] at hc hd
    obtain ⟨c', hc', rfl⟩ := List.mem_map.1 hc
    obtain ⟨d', hd', rfl⟩ := List.mem_map.1 hd
    have e : c' = d' := by
      simp only [Bool.or_eq_true, List.isEmpty_iff, decide_eq_true_eq] at g1
      rcases g1 with (q | q) | q
      · rw [q] at hc'; cases hc'
      · rw [q] at hd'; cases hd'
      · rw [← q] at hd'
        match hm : v.a.made, g2 with
        | [], _ => rw [hm] at hc'; cases hc'
        | [z], _ =>
          rw [hm] at hc' hd'
          simp only [List.mem_singleton] at hc' hd'
          rw [hc', hd']
    rw [e]
  · intro ne
    simp only [ne, decide_false, Bool.false_or, Bool.and_eq_true, List.isEmpty_iff] at g4
    simp [World.ren, Slot.ren, g4.1, g4.2]
  · intro e hr ha hb
    obtain ⟨r1, r2, r3, r4, r5, r6⟩ := hr
    simp only [World.ren, Slot.ren, List.map_eq_nil_iff] at r1 r2 r3 r4 r5 r6
    have ha : v.a.psk.isSome = true := by simpa [World.ren, Slot.ren] using ha
    have hb : v.b.psk.isSome = true := by simpa [World.ren, Slot.ren] using hb
    simp only [e, decide_true, r1, r2, r3, r4, r5, r6, ha, hb, List.isEmpty_nil, Bool.and_self, Bool.not_true,
      Bool.false_or] at g5
    cases hv : v.a.vconn with
    | none => rw [hv] at g5; cases g5
    | some z =>
      rw [hv] at g5
      simp only [Bool.and_eq_true, decide_eq_true_eq, List.elem_eq_mem] at g5
      obtain ⟨⟨⟨g6, g7⟩, g8⟩, g9⟩ := g5
      refine ⟨z.key.ren f, z.id, ?_, ?_, ?_, ?_⟩
      · simp [World.ren, Slot.ren, hv, Vconn.ren, g6]
      · simp [World.ren, Slot.ren, g7, Vconn.ren, g6]
      · exact List.mem_map.2 ⟨_, g8, rfl⟩
      · exact List.mem_map.2 ⟨_, g9, rfl⟩

/-- Such a run to its end, the requests crossing. -/
def crossing : List Act :=
  [.connect .b 7, .serve .b 0, .connect .a 7, .deliver .a 0, .serve .a 0, .serve .a 0, .deliver .a 0, .deliver .b 0,
    .serve .b 0, .deliver .a 0, .serve .a 0, .deliver .b 0, .serve .b 0, .deliver .a 0, .punched .a 6 false,
    .punched .b 5 false]

example : (∀ t ∈ crossing, t.inOrder 7 7 = true) ∧ (∀ i, crossing.countP (Act.connects i) ≤ 1) ∧
    (run (start 1 2) crossing).rest ∧ (run (start 1 2) crossing).a.vconn = some ⟨⟨⟨.b, 3⟩, ⟨.a, 4⟩, 7⟩, 3, true⟩ := by
  refine ⟨by decide, fun i => by cases i <;> decide, ?_, by decide +kernel⟩
  simp only [World.rest]
  decide +kernel

/-- In that run the user with the lower cid, who is connected in the end, is first told of a failure: their client
answered the crossing request as if it had been asked to, and the server has no such request any more. -/
theorem C191_false_alarm :
    (run (start 1 2) crossing).a.told = [.failed, .channel ⟨⟨.b, 3⟩, ⟨.a, 4⟩, 7⟩ 3] := by decide +kernel

/-! ### C192: every connection made is handed to the user -/

/-- **C192, partial.** In the same runs: when nothing is under way, the channel of every connection made has been handed
to the user of either end, and the connection is still there and active.

Missing: other runs (`C192_counterexample_…`). -/
theorem C192_simple_partial (ca cb pa pb : Nat) (l l' : List Act) (hq : ∀ t ∈ l, t.quiet = true)
    (hq' : ∀ t ∈ l', t.quiet = true) (i : Side) :
    let w := run (start ca cb) (.connect .a pa :: l ++ .respond .b pb :: l')
    w.rest → ∀ c ∈ (w.slot i).made, Ev.channel c.1 c.2 ∈ (w.slot i).told ∧
      (w.slot i).vconn = some ⟨c.1, c.2, true⟩ := by
  intro w
  have h : Seg1 ca cb pa w ∨ Seg2 ca cb pa pb w := simple_worlds ca cb pa pb l l' hq hq'
  generalize w = w at h
  rcases h with h | h
  · cases h <;> cases i <;> simp [sa1, sb0, sb1, World.rest, World.slot]
  · cases h with
    | p10 h s hs => rcases hs with rfl | rfl <;> cases i <;> simp [sa3, sa4, sb3, World.rest, World.slot]
    | p11 h s hs => rcases hs with rfl | rfl <;> cases i <;> simp [sa3, sa4, sb3, World.rest, World.slot]
    | p12 h s s' hs hs' =>
      rcases hs with rfl | rfl <;> rcases hs' with rfl | rfl <;> cases i <;>
        simp [sa3, sa4, sb4, sb5, World.rest, World.slot]
    | f10 h => cases i <;> simp [saf, sb3, World.rest, World.slot]
    | f11 h => cases i <;> simp [saf, sb3, World.rest, World.slot]
    | _ => cases i <;> simp [sa1, sa2, sb2, sb3, World.rest, World.slot]

/-- A second `Stage2` (or any new exchange) while hole punching runs: it is told to stop, the channel it holds is dropped
and the connection with it, and the user never hears of it. -/
theorem C192_counterexample_dropped :
    let w := hrun known7 (hostile 1 2) [.ask .a 7 .request, .ask .b 7 .accept, .say .a .accept,
      .say .b (.stage0 ⟨.a, 3⟩ 3), .say .a (.stage1 ⟨.a, 3⟩ ⟨.b, 4⟩ 7 3), .say .b .stage2, .say .b .stage2,
      .punched .b 6 false]
    w.b.made = [(⟨⟨.a, 3⟩, ⟨.b, 4⟩, 7⟩, 3)] ∧ w.b.punches = [] ∧ w.b.told = [] ∧
      w.b.vconn.map (·.active) = some false ∧ w.a.vconn.map (·.active) = some true := by decide +kernel

/-- With an honest server and every queue in order, if both users ask and accept: nothing is under way, connections were
made, and no end has an active one. -/
theorem C192_counterexample_honest :
    let w := run (start 1 2) [.connect .a 7, .serve .a 0, .deliver .b 0, .respond .b 7, .serve .b 0, .deliver .a 0,
      .serve .a 0, .deliver .b 0, .serve .b 0, .connect .b 7, .serve .b 0, .deliver .a 0, .deliver .a 0,
      .punched .a 4 false, .serve .a 0, .deliver .b 0, .respond .a 7, .serve .a 0, .deliver .b 0, .serve .b 0,
      .deliver .a 0, .serve .a 0, .deliver .b 0, .punched .b 6 false, .serve .b 0, .deliver .a 0, .deliver .b 0]
    w.b.made ≠ [] ∧ (∀ c ∈ w.b.made, Ev.channel c.1 c.2 ∉ w.b.told) ∧ w.b.punches = [] := by decide +kernel

/-! ### C193: the id of a connection names it -/

/-- **C193, partial.** With a server that keeps to the protocol, for any asks and answers and any order of the signals:
two connections, of the same end or of both, have the same id exactly if they have the same key.

Missing: a server that does not (`C193_counterexample`). -/
theorem C193_names_partial (ca cb : Nat) (acts : List Act) (i j : Side) (c d : Key × Nat)
    (hc : c ∈ ((run (start ca cb) acts).slot i).made) (hd : d ∈ ((run (start ca cb) acts).slot j).made) :
    c.2 = d.2 ↔ c.1 = d.1 := by
  have h := ids_run acts _ (ids_start ca cb)
  have h1 := h.idm i c hc
  have h2 := h.idm j d hd
  constructor
  · intro e
    exact h.one c.1 d.1 (.inr (.inr ⟨i, c.2, hc⟩)) (.inr (.inr ⟨j, d.2, hd⟩)) (by omega)
  · intro e
    rw [h1, h2, e]

/-- **C193, partial.** And no end uses an id, and with it a key, for two connections. -/
theorem C193_once_partial (ca cb : Nat) (acts : List Act) (i : Side) :
    (((run (start ca cb) acts).slot i).made.map (·.2)).Nodup := by
  have h := ids_run acts _ (ids_start ca cb)
  refine made_nodup (h.idm i) (fun v => ?_)
  have := (h.uses i v).1
  unfold World.uses at this
  omega

/-- Two connections one after the other, both at both ends. -/
example :
    let w := run (start 1 2) (.connect .a 7 :: [.serve .a 0, .deliver .b 0] ++ .respond .b 7 :: allThrough ++
      [.dropped .a 2, .serve .a 0, .deliver .a 0, .deliver .b 0, .connect .b 8, .serve .b 0, .deliver .a 0,
        .respond .a 8, .serve .a 0, .deliver .b 0, .serve .b 0, .deliver .a 0, .serve .a 0, .deliver .b 0, .serve .b 0,
        .deliver .a 0])
    w.a.made = [(⟨⟨.b, 9⟩, ⟨.a, 10⟩, 8⟩, 9), (theKey 7, 2)] ∧ w.b.made = w.a.made := by decide +kernel

/-- A relay that changes the id in `Stage0`: the same key, different ids, so that the ends no longer understand each
other's tokens. -/
theorem C193_counterexample :
    let w := hrun known7 (hostile 1 2) [.ask .a 7 .request, .ask .b 7 .accept, .say .a .accept,
      .say .b (.stage0 ⟨.a, 3⟩ 99), .say .a (.stage1 ⟨.a, 3⟩ ⟨.b, 4⟩ 7 99), .say .b .stage2]
    w.a.made = [(⟨⟨.a, 3⟩, ⟨.b, 4⟩, 7⟩, 3)] ∧ w.b.made = [(⟨⟨.a, 3⟩, ⟨.b, 4⟩, 7⟩, 99)] := by decide +kernel

end Verif.PeerKex

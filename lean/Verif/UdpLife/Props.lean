import Verif.UdpLife.Lemmas

/-!
# C226-C229: the life of the unordered channel of two peers
-/

namespace Verif.UdpLife

/-! ## C226: there is one channel, and each is handed out once -/

/-- In every run at most one UDP task runs for a peer; it is that of the channel in the table, and
this channel was handed to the program. -/
theorem C226_one (w : Bool) (es : List Event) (n m : Nat) (hn : (run (init w) es).task n = true)
    (hm : (run (init w) es).task m = true) :
    n = m ∧ (∃ v, (run (init w) es).vconn = some v ∧ v.chan = some n) ∧
      ∃ k, (k, n) ∈ (run (init w) es).given := by
  have h := inv_run (inv_init w) es
  obtain ⟨v, hv, hc⟩ := h.reg n hn
  obtain ⟨u, hu, hd⟩ := h.reg m hm
  rw [hv] at hu; cases hu
  rw [hc] at hd; cases hd
  exact ⟨rfl, ⟨v, hv, hc⟩, h.gave n hn⟩

/-- No channel is handed out twice. -/
theorem C226_once (w : Bool) (es : List Event) :
    ((run (init w) es).given.map Prod.snd).Nodup := (inv_run (inv_init w) es).once

/-- If the ids of the key exchanges differ, no exchange gives two channels. -/
theorem C226_exchange (w : Bool) (es : List Event) (h : (kexes es).Nodup) :
    ((run (init w) es).given.map Prod.fst).Nodup := by
  obtain ⟨_, hi⟩ := ids_run es (init w) [] ⟨by simp [init], by simp [init], by simp [init], by simp [init]⟩
    h (by simp)
  exact hi.once

/-- The UDP sender in the table, which packets for the peer are handed to, is that of the channel in
the table. -/
theorem C226_sender (w : Bool) (es : List Event) (v : Vconn) (n : Nat)
    (hv : (run (init w) es).vconn = some v) (hn : v.udp = some n) : v.chan = some n := by
  have main : ∀ (es : List Event) (s : State), (∀ v n, s.vconn = some v → v.udp = some n → v.chan = some n) →
      ∀ v n, (run s es).vconn = some v → v.udp = some n → v.chan = some n := by
    intro es
    induction es with
    | nil => intro s h; exact h
    | cons e es ih => intro s h; exact ih (step s e) (sender_step h e)
  exact main es (init w) (by simp [init]) v n hv hn

/-- When the program drops a channel that works, and the command is dispatched, the task has ended,
nothing is registered, and the connection stands. -/
theorem C226_drop (w : Bool) (es : List Event) (n : Nat) (h : Works (run (init w) es) n)
    (hh : (run (init w) es).held n = true) (hq : (run (init w) es).queue = []) :
    let t := run (run (init w) es) [.dropHalf n, .dispatch]
    (∀ m, t.task m = false) ∧ (∀ m, ¬ Listening t m) ∧ t.queue = [] ∧
      ∃ v, t.vconn = some v ∧ v.active = true ∧ v.udp = none := by
  have hi := inv_run (inv_init w) es
  generalize run (init w) es = s at h hh hq hi
  obtain ⟨_, v, hv, ha, hc⟩ := h
  have htok := (hi.tok v n hv hc).2
  have hd := hi.dir v n hv hc
  have he : run s [.dropHalf n, .dispatch] =
      { s with
        held := set s.held n false
        queue := []
        vconn := some { v with udp := none, chan := none }
        task := stop s.task v.chan } := by
    simp [run, step, dropHalf, hh, dispatch, hq, hv, htok, removeUdp, hd]
  rw [he]
  refine ⟨stopped hi hv, ?_, rfl, _, rfl, ha, rfl⟩
  rintro m ⟨u, hu, _, hcu⟩
  cases hu
  cases hcu

/-- A channel that is loaded when nobody waits for it is taken down again: once its command is
dispatched nothing is registered, and the connection stands. -/
theorem C226_untaken (s : State) (v : Vconn) (hv : s.vconn = some v) (hd : v.direct.isSome = true)
    (hp : s.pending ≠ 0) (hq : s.queue = [])
    (hk : ∀ k, s.kem = some k → k.tx = false ∨ k.rx = false) :
    let t := run s [.load, .dispatch]
    t.given = s.given ∧ t.queue = [] ∧ (∀ m, ¬ Listening t m) ∧
      ∃ u, t.vconn = some u ∧ u.id = v.id ∧ u.active = v.active ∧ u.udp = none := by
  have key : ∀ k, run s [.load, .dispatch] =
      { s with
        kem := k
        pending := s.pending - 1
        next := s.next + 1
        token := set s.token s.next v.id
        queue := []
        vconn := some { v with udp := none, chan := none }
        task := stop (stop s.task v.chan) (some s.next) } →
      (let t := run s [.load, .dispatch]
      t.given = s.given ∧ t.queue = [] ∧ (∀ m, ¬ Listening t m) ∧
        ∃ u, t.vconn = some u ∧ u.id = v.id ∧ u.active = v.active ∧ u.udp = none) := by
    intro k he
    rw [he]
    refine ⟨rfl, rfl, ?_, _, rfl, rfl, rfl, rfl⟩
    rintro m ⟨u, hu, _, hcu⟩
    cases hu
    cases hcu
  cases hx : s.kem with
  | none =>
    exact key none (by
      simp [run, step, load, hp, insertUdp, hv, hd, hand, hx, lost, hq, dispatch, set_same, removeUdp])
  | some k =>
    cases htx : k.tx with
    | false =>
      exact key (some k) (by
        simp [run, step, load, hp, insertUdp, hv, hd, hand, hx, htx, lost, hq, dispatch, set_same,
          removeUdp])
    | true =>
      have hrx : k.rx = false := by
        rcases hk k hx with h | h
        · rw [htx] at h; cases h
        · exact h
      exact key (some { k with tx := false }) (by
        simp [run, step, load, hp, insertUdp, hv, hd, hand, hx, htx, hrx, lost, hq, dispatch,
          set_same, removeUdp])

/-- Such a state is reached: the program dropped its receiver. -/
example : (run (init true) [.kex 1, .create false, .stream true, .dropRx 1]).kem =
      some ⟨1, false, true, false⟩ ∧
    (run (init true) [.kex 1, .create false, .stream true, .dropRx 1]).pending = 1 ∧
    (run (init true) [.kex 1, .create false, .stream true, .dropRx 1]).vconn =
      some ⟨1, true, some true, none, none⟩ ∧
    (run (init true) [.kex 1, .create false, .stream true, .dropRx 1]).queue = [] := by decide

/-- When the connection is removed, its task ends. -/
theorem C226_close (w : Bool) (es : List Event) (n : Nat) :
    (run (init w) (es ++ [.close])).task n = false ∧ ¬ Listening (run (init w) (es ++ [.close])) n := by
  rw [run_append]
  show (close (run (init w) es)).task n = false ∧ ¬ Listening (close (run (init w) es)) n
  have hi := inv_close (inv_run (inv_init w) es)
  have hn := (close_same (run (init w) es)).2.2.2.2
  refine ⟨idle hi hn n, ?_⟩
  rintro ⟨v, hv, _⟩
  rw [hn] at hv; cases hv

/-- The normal case: exchange, connection, stream, loader; the channel works. -/
example : (run (init true) [.kex 5, .create true, .stream true, .load]).given = [(5, 0)] ∧
    Works (run (init true) [.kex 5, .create true, .stream true, .load]) 0 :=
  ⟨rfl, rfl, _, rfl, rfl, rfl⟩

/-- Dropping the receiving half ends the task, once the command is dispatched. -/
example : (run (init true)
    [.kex 5, .create true, .stream true, .load, .dropHalf 0, .dispatch]).task 0 = false := rfl

/-! ## C227: the program learns that its channel has ended -/

/-- As long as no socket fails: a channel of the program whose receiving half has not ended has its
task, so what the program writes goes out. -/
theorem C227_partial (w : Bool) (es : List Event) (n k : Nat) (hf : NoFail es)
    (hl : Listening (run (init w) es) n) (hg : (k, n) ∈ (run (init w) es).given) :
    (run (init w) es).task n = true := by
  have ha := alive_run es (init w) (inv_init w) (by intro v; simp [init]) hf
  obtain ⟨v, hv, _, hc⟩ := hl
  exact ha v n k hv hc hg

theorem create_active {s : State} {v : Vconn} (hv : s.vconn = some v) (ha : v.active = true)
    (f : Bool) : ∃ K, create s f = { s with kem := K } := by
  unfold create
  split
  · exact ⟨s.kem, rfl⟩
  · split
    · split
      · rename_i hn; rw [hv] at hn; cases hn
      · rename_i u hu
        rw [hv] at hu; cases hu
        rw [if_pos ha]
        split
        · exact ⟨_, rfl⟩
        · exact ⟨_, rfl⟩
    · split
      · exact ⟨_, rfl⟩
      · exact ⟨s.kem, rfl⟩

theorem load_idle {s : State} (h : s.pending = 0) : load s = s := by simp [load, h]

/-- Events in which nobody ends the connection or the channel, and no further stream comes. -/
def Quiet : Event → Prop
  | .stream _ => False
  | .dropHalf _ => False
  | .deactivate => False
  | .close => False
  | _ => True

theorem quiet_step {s : State} {n : Nat} {e : Event} (hq : Quiet e)
    (h : Listening s n ∧ s.task n = false ∧ s.pending = 0 ∧ s.queue = []) :
    Listening (step s e) n ∧ (step s e).task n = false ∧ (step s e).pending = 0 ∧
      (step s e).queue = [] := by
  obtain ⟨⟨v, hv, ha, hc⟩, ht, hp, hz⟩ := h
  cases e with
  | kex id => exact ⟨⟨v, hv, ha, hc⟩, ht, hp, hz⟩
  | create f =>
    obtain ⟨K, hK⟩ := create_active hv ha f
    simp only [step, hK]
    exact ⟨⟨v, hv, ha, hc⟩, ht, hp, hz⟩
  | stream l => exact absurd hq (by simp [Quiet])
  | load => simp only [step, load_idle hp]; exact ⟨⟨v, hv, ha, hc⟩, ht, hp, hz⟩
  | dispatch =>
    have : dispatch s = s := by simp [dispatch, hz]
    simp only [step, this]; exact ⟨⟨v, hv, ha, hc⟩, ht, hp, hz⟩
  | dropHalf n => exact absurd hq (by simp [Quiet])
  | dropRx id =>
    simp only [step, dropRx]
    split
    · exact ⟨⟨v, hv, ha, hc⟩, ht, hp, hz⟩
    · split <;> exact ⟨⟨v, hv, ha, hc⟩, ht, hp, hz⟩
  | fail m =>
    refine ⟨⟨v, hv, ha, hc⟩, ?_, hp, hz⟩
    simp only [step, fail, set]
    split
    · rfl
    · exact ht
  | deactivate => exact absurd hq (by simp [Quiet])
  | close => exact absurd hq (by simp [Quiet])
  | forget => exact ⟨⟨v, hv, ha, hc⟩, ht, hp, hz⟩

/-- Refuted in general: when the socket of a channel that works fails, the task ends, and the
program is not told: whatever happens, until somebody ends the connection or the program drops
the channel itself, the receiving half goes on waiting. -/
theorem C227_counterexample (s : State) (n : Nat) (h : Works s n) (hp : s.pending = 0)
    (hq : s.queue = []) (es : List Event) (he : ∀ e, e ∈ es → Quiet e) :
    Listening (run (fail s n) es) n ∧ (run (fail s n) es).task n = false := by
  have main : ∀ (es : List Event) (s : State), (∀ e, e ∈ es → Quiet e) →
      (Listening s n ∧ s.task n = false ∧ s.pending = 0 ∧ s.queue = []) →
      Listening (run s es) n ∧ (run s es).task n = false := by
    intro es
    induction es with
    | nil => intro s _ h; exact ⟨h.1, h.2.1⟩
    | cons e es ih =>
      intro s he h
      exact ih (step s e) (fun e' h' => he e' (List.mem_cons_of_mem _ h'))
        (quiet_step (he e List.mem_cons_self) h)
  exact main es (fail s n) he ⟨h.2, set_same _ _ _, hp, hq⟩

/-- The hypotheses hold after the normal case. -/
example : let s := run (init true) [.kex 5, .create true, .stream true, .load]
    Works s 0 ∧ s.pending = 0 ∧ s.queue = [] := ⟨⟨rfl, _, rfl, rfl, rfl⟩, rfl, rfl⟩

/-! ## C228: a channel works until somebody ends it -/

theorem harmless_step {s : State} {n : Nat} {e : Event} (hi : Inv s) (hh : Harmless s n e)
    (hs : ∀ l, e ≠ .stream l) (h : Works s n ∧ s.pending = 0 ∧ s.token n ∉ s.queue) :
    Works (step s e) n ∧ (step s e).pending = 0 ∧ (step s e).token n ∉ (step s e).queue := by
  obtain ⟨⟨ht, v, hv, ha, hc⟩, hp, hz⟩ := h
  cases e with
  | kex id => exact ⟨⟨ht, v, hv, ha, hc⟩, hp, hz⟩
  | create f =>
    obtain ⟨K, hK⟩ := create_active hv ha f
    simp only [step, hK]
    exact ⟨⟨ht, v, hv, ha, hc⟩, hp, hz⟩
  | stream l => exact absurd rfl (hs l)
  | load => simp only [step, load_idle hp]; exact ⟨⟨ht, v, hv, ha, hc⟩, hp, hz⟩
  | dispatch =>
    simp only [step]
    cases hq : s.queue with
    | nil =>
      have : dispatch s = s := by simp [dispatch, hq]
      rw [this]; exact ⟨⟨ht, v, hv, ha, hc⟩, hp, hz⟩
    | cons t q =>
      rw [hq] at hz
      simp only [List.mem_cons, not_or] at hz
      have hne : v.id ≠ t := by rw [← (hi.tok v n hv hc).2]; exact hz.1
      have : dispatch s = { s with queue := q } := by simp [dispatch, hq, hv, hne]
      rw [this]
      exact ⟨⟨ht, v, hv, ha, hc⟩, hp, hz.2⟩
  | dropHalf m =>
    simp only [step, dropHalf]
    split
    · refine ⟨⟨ht, v, hv, ha, hc⟩, hp, ?_⟩
      simp only [List.mem_append, List.mem_singleton, not_or]
      exact ⟨hz, fun h => hh h.symm⟩
    · exact ⟨⟨ht, v, hv, ha, hc⟩, hp, hz⟩
  | dropRx id =>
    simp only [step, dropRx]
    split
    · exact ⟨⟨ht, v, hv, ha, hc⟩, hp, hz⟩
    · split <;> exact ⟨⟨ht, v, hv, ha, hc⟩, hp, hz⟩
  | fail m =>
    have hm : n ≠ m := fun h => hh h.symm
    refine ⟨⟨?_, v, hv, ha, hc⟩, hp, hz⟩
    simp only [step, fail, set_other _ _ hm]; exact ht
  | deactivate => exact absurd hh (by simp [Harmless])
  | close => exact absurd hh (by simp [Harmless])
  | forget => exact ⟨⟨ht, v, hv, ha, hc⟩, hp, hz⟩

/-- When no further stream of the peer comes, a channel that works goes on to work, whatever key
exchanges begin or end and whatever channels of other connections are dropped, until its own end:
its socket fails, the connection ends, or a channel of the same connection is dropped. -/
theorem C228_lives_partial (w : Bool) (as es : List Event) (n : Nat)
    (h : Works (run (init w) as) n) (hp : (run (init w) as).pending = 0)
    (hq : (run (init w) as).token n ∉ (run (init w) as).queue)
    (hs : ∀ l, Event.stream l ∉ es) (hh : HarmlessRun (run (init w) as) n es) :
    Works (run (run (init w) as) es) n := by
  have main : ∀ (es : List Event) (s : State), Inv s → HarmlessRun s n es →
      (∀ l, Event.stream l ∉ es) → (Works s n ∧ s.pending = 0 ∧ s.token n ∉ s.queue) →
      Works (run s es) n := by
    intro es
    induction es with
    | nil => intro s _ _ _ h; exact h.1
    | cons e es ih =>
      intro s hi hh hs h
      refine ih (step s e) (inv_step hi e) hh.2 (fun l hm => hs l (List.mem_cons_of_mem _ hm)) ?_
      exact harmless_step hi hh.1 (fun l he => hs l (by rw [he]; exact List.mem_cons_self)) h
  exact main es _ (inv_run (inv_init w) as) hh hs ⟨h, hp, hq⟩

/-- Met with the end of another exchange (which is dropped as a duplicate), and the drop of the
channel of an older connection. -/
example : let s := run (init true) [.kex 4, .create true, .stream true, .load, .deactivate,
      .kex 5, .create true, .stream true, .load]
    Works s 1 ∧ s.pending = 0 ∧ s.token 1 ∉ s.queue ∧
      HarmlessRun s 1 [.dropHalf 0, .kex 6, .create false, .dispatch, .load] :=
  ⟨⟨rfl, _, rfl, rfl, rfl⟩, rfl, by decide,
    show (4 : Nat) ≠ 5 by decide, trivial, trivial, trivial, trivial, trivial⟩

/-- Refuted in general: in any reachable state in which a channel works, a second stream of the peer
(also one that the tie-breaker discards) ends it: its task is stopped and its receiving half
ends; and if the oneshot has been used, as it has when the channel was given, the program gets no
other channel and no task runs. -/
theorem C228_counterexample (w : Bool) (es : List Event) (n : Nat) (l : Bool)
    (h : Works (run (init w) es) n) :
    let t := run (run (init w) es) [.stream l, .load]
    t.task n = false ∧ ¬ Listening t n ∧
      ((∀ k, (run (init w) es).kem = some k → k.tx = false) →
        t.given = (run (init w) es).given ∧ ∀ m, t.task m = false) := by
  have hi := inv_run (inv_init w) es
  generalize run (init w) es = s at h hi
  obtain ⟨ht, v, hv, ha, hc⟩ := h
  have hlt : n < s.next := (hi.tok v n hv hc).1
  have hi1 : Inv (stream s l) := inv_stream hi l
  obtain ⟨h1, h2, h3, h4⟩ := insertDirect_chan s.want v l
  have hst : stream s l = { s with vconn := some (insertDirect s.want v l), pending := s.pending + 1 } := by
    simp [stream, hv]
  have hne : n ≠ s.next := by omega
  have hstop : ∀ m, stop s.task v.chan m = false := stopped hi hv
  show let t := load (stream s l)
    t.task n = false ∧ ¬ Listening t n ∧ ((∀ k, s.kem = some k → k.tx = false) →
        t.given = s.given ∧ ∀ m, t.task m = false)
  simp only
  have hl : load (stream s l) = hand { s with
      vconn := some { insertDirect s.want v l with udp := some s.next, chan := some s.next }
      pending := s.pending
      task := stop s.task v.chan
      token := set s.token s.next (insertDirect s.want v l).id
      next := s.next + 1 } s.next := by
    simp [load, hst, insertUdp, h4, h1]
  rw [hl]
  unfold hand
  simp only
  have hnl : ∀ (t : State), t.vconn = some { insertDirect s.want v l with udp := some s.next, chan := some s.next } →
      ¬ Listening t n := by
    rintro t ht ⟨u, hu, _, hcu⟩
    rw [ht] at hu; cases hu
    simp only [Option.some.injEq] at hcu
    exact hne hcu.symm
  split
  · exact ⟨hstop n, hnl _ rfl, fun _ => ⟨rfl, hstop⟩⟩
  · rename_i k hk
    split
    · rename_i htx
      split
      · refine ⟨?_, hnl _ rfl, fun hx => ?_⟩
        · simp only [set_other _ _ hne]; exact hstop n
        · rw [hx k hk] at htx; cases htx
      · refine ⟨hstop n, hnl _ rfl, fun hx => ?_⟩
        rw [hx k hk] at htx; cases htx
    · exact ⟨hstop n, hnl _ rfl, fun _ => ⟨rfl, hstop⟩⟩

/-- The stream that ends the channel is one that was discarded: the connection keeps the first. -/
example : let s := run (init true) [.kex 5, .create true, .stream true, .load]
    Works s 0 ∧ (∀ k, s.kem = some k → k.tx = false) ∧ (stream s false).vconn = s.vconn :=
  ⟨⟨rfl, _, rfl, rfl, rfl⟩, by intro k hk; cases hk; rfl, rfl⟩

/-! ## C229: a connection gets its own channel -/

/-- A connection whose oneshot is untouched gets its channel when its first stream comes, and the
channel works. -/
theorem C229_gets (s : State) (v : Vconn) (k : Kem) (l : Bool) (hv : s.vconn = some v)
    (ha : v.active = true) (hk : s.kem = some k) (htx : k.tx = true) (hrx : k.rx = true) :
    let t := run s [.stream l, .load]
    (k.id, s.next) ∈ t.given ∧ Works t s.next ∧ t.token s.next = v.id := by
  obtain ⟨h1, h2, h3, h4⟩ := insertDirect_chan s.want v l
  have hl : load (stream s l) = hand { s with
      vconn := some { insertDirect s.want v l with udp := some s.next, chan := some s.next }
      pending := s.pending
      task := stop s.task v.chan
      token := set s.token s.next (insertDirect s.want v l).id
      next := s.next + 1 } s.next := by
    simp [load, stream, hv, insertUdp, h4, h1]
  show let t := load (stream s l)
    (k.id, s.next) ∈ t.given ∧ Works t s.next ∧ t.token s.next = v.id
  simp only
  rw [hl]
  simp only [hand, hk, htx, hrx, if_true]
  refine ⟨by simp, ⟨set_same _ _ _, _, rfl, by simp [h3, ha], rfl⟩, ?_⟩
  simp only [set_same, h2]

/-- When no exchange begins while there is a connection to the peer, each channel belongs to the
connection in whose exchange it was promised. -/
theorem C229_own_partial (w : Bool) (es : List Event) (h : OneByOne (init w) es) (k n : Nat)
    (hg : (k, n) ∈ (run (init w) es).given) : (run (init w) es).token n = k :=
  (own_run es (init w) (inv_init w) ⟨by simp [init], by simp [init]⟩ h).given (k, n) hg

/-- Met by two connections after each other. -/
example : OneByOne (init true) [.kex 4, .create true, .stream true, .load, .close,
      .kex 5, .create false, .stream true, .load] ∧
    (run (init true) [.kex 4, .create true, .stream true, .load, .close,
      .kex 5, .create false, .stream true, .load]).given = [(4, 0), (5, 1)] := by
  refine ⟨?_, rfl⟩
  simp only [OneByOne]
  refine ⟨fun _ _ => rfl, ?_, ?_, ?_, ?_, fun _ _ => rfl, ?_, ?_, ?_, trivial⟩ <;>
    (intro id h; cases h)

/-- Refuted in general: a loader of the old connection that runs after the exchange for the new one
has begun takes the oneshot of the new one.  The program of the new connection gets the channel
of the old one, which has ended, and never its own, though the stream for it comes. -/
theorem C229_counterexample (w : Bool) (a b : Nat) (f g l l' : Bool) :
    let t := run (init w) [.kex a, .create f, .stream l, .deactivate, .kex b, .load, .create g,
      .stream l', .load]
    t.given = [(b, 0)] ∧ t.token 0 = a ∧ (∃ v, t.vconn = some v ∧ v.id = b ∧ v.active = true) ∧
      ¬ Listening t 0 ∧ ∀ n, t.task n = false := by
  refine ⟨rfl, rfl, ⟨_, rfl, rfl, rfl⟩, ?_, ?_⟩
  · rintro ⟨u, hu, _, hc⟩
    cases hu
    cases hc
  · intro n
    simp [run, step, kex, create, stream, insertDirect, deactivate, load, insertUdp, hand, lost,
      init, stop, set]

/-- No channel is given for an exchange whose entry is gone. -/
theorem gone_run (a : Nat) : ∀ (es : List Event) (s : State), a ∉ kexes es →
    (∀ k, s.kem = some k → k.id ≠ a) → (∀ n, (a, n) ∉ s.given) → ∀ n, (a, n) ∉ (run s es).given
  | [], _, _, _, h => h
  | e :: es, s, hk, hne, h => by
    by_cases hx : ∃ id, e = .kex id
    · obtain ⟨id, rfl⟩ := hx
      simp only [kexes, List.mem_cons, not_or] at hk
      refine gone_run a es (kex s id) hk.2 ?_ h
      intro k hk'; cases hk'; exact fun he => hk.1 he.symm
    · have he' : ∀ id, e ≠ .kex id := fun id h => hx ⟨id, h⟩
      have hke : kexes (e :: es) = kexes es := by
        cases e <;> first | rfl | exact absurd rfl (he' _)
      rw [hke] at hk
      rcases eff_step s e he' with ⟨hg, hkk⟩ | ⟨k, v, hs, _, _, _, hkk, hg, _⟩
      · refine gone_run a es (step s e) hk ?_ (by rw [hg]; exact h)
        intro k' hk'
        obtain ⟨k, h1, h2, _⟩ := hkk k' hk'
        rw [h2]; exact hne k h1
      · refine gone_run a es (step s e) hk ?_ ?_
        · intro k' hk'; rw [hkk] at hk'; cases hk'; exact hne k hs
        · intro n hn
          rw [hg] at hn
          simp only [List.mem_append, List.mem_singleton] at hn
          rcases hn with hn | hn
          · exact h n hn
          · cases hn; exact hne k hs rfl

/-- Refuted in general: when the peers connect at the same time, the second exchange replaces the
entry of the first.  Its connection is dropped as a duplicate and the first is kept, but the
program of the first never gets its unordered channel, whatever happens. -/
theorem C229_counterexample_race (s : State) (v : Vconn) (b : Nat) (f : Bool) (es : List Event)
    (hv : s.vconn = some v) (ha : v.active = true) (hb : b ≠ v.id)
    (hn : ∀ n, (v.id, n) ∉ s.given) (hk : v.id ∉ kexes es) :
    (run s [.kex b, .create f]).vconn = some v ∧
      ∀ n, (v.id, n) ∉ (run (run s [.kex b, .create f]) es).given := by
  have he : (run s [.kex b, .create f]).vconn = some v := by
    cases f <;> simp [run, step, kex, create, hv, ha]
  refine ⟨he, ?_⟩
  rw [← run_append]
  show ∀ n, (v.id, n) ∉ (run (kex s b) (.create f :: es)).given
  refine gone_run v.id (.create f :: es) (kex s b) hk ?_ hn
  intro k hk'; cases hk'; exact hb

/-- The hypotheses hold between the exchange and the end of hole punching. -/
example : let s := run (init true) [.kex 5, .create true]
    ∃ v, s.vconn = some v ∧ v.active = true ∧ v.id = 5 ∧ (∀ n, (v.id, n) ∉ s.given) :=
  ⟨_, rfl, rfl, rfl, by intro n h; cases h⟩

end Verif.UdpLife

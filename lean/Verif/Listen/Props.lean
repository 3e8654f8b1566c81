import Verif.Listen.Lemmas

/-! # Properties C235-C239 -/

namespace Verif.Listen

/-! ## C235: a client that requires verified certificates is connected to nobody else -/

/-- Refuted: whoever says it is a plain TCP server is connected to, whatever is required. -/
theorem C235_counterexample_plain (names : String → Bool) : Connected true .plain names := rfl

/-- Refuted: the name is taken from the packet that is not authenticated; a certificate for any
name will do. -/
theorem C235_counterexample_name (names : String → Bool) (evil : String) (h : names evil = true) :
    Connected true (.tls (some evil) false) names ∧ Connected true (.p2p (some evil) false) names := by
  simp [Connected, choose, connects, h]

/-- So no server can be told from one that has no certificate for its name. -/
example (server : String) : ∃ names : String → Bool, names server = false ∧
    ∃ f, Connected true f names := ⟨fun _ => false, rfl, .plain, rfl⟩

/-- Partial: without any certificate nobody is connected to over TLS or QUIC, whatever they say.
What is missing: plain TCP, and that the certificate is for the server that was meant. -/
theorem C235_partial (f : First) (names : String → Bool) (hp : f ≠ .plain)
    (h : ∀ n, names n = false) : ¬ Connected true f names := by
  cases f with
  | plain => exact absurd rfl hp
  | tls d s => simp [Connected, choose, connects, h]
  | p2p d s => cases d <;> simp [Connected, choose, connects, h]

/-- With the requirement the flag that a server sets about itself changes nothing. -/
theorem C235_flag (d : Option String) (s s' : Bool) :
    choose true (.tls d s) = choose true (.tls d s') ∧
      choose true (.p2p d s) = choose true (.p2p d s') := by
  cases d <;> simp [choose]

/-- Whatever is tried under the requirement, other than plain TCP, is verified. -/
theorem C235_verifies (f : First) (n : String) (v : Bool)
    (h : choose true f = .tls n v ∨ choose true f = .quic n v) : v = true := by
  cases f with
  | plain => simp [choose] at h
  | tls d s => simp [choose] at h; exact h.2
  | p2p d s => cases d <;> simp [choose] at h <;> exact h.2

/-! ## C236: an honest server is reached in each of its modes -/

/-- Without the requirement every server is reached, if it holds the certificate for the domain it
was configured with. -/
theorem C236_reached (m : Mode) (names : String → Bool)
    (h : ∀ d, m = .tls d ∨ m = .p2p d → names d = true) : Connected false m.first names := by
  cases m with
  | plain => rfl
  | tlsSelf => rfl
  | tls d => simp [Connected, Mode.first, choose, connects, h d (.inl rfl)]
  | p2pSelf => rfl
  | p2p d => simp [Connected, Mode.first, choose, connects, h d (.inr rfl)]

/-- With it, every server with a domain, and no server that signed for itself, unless its
certificate is one the client trusts. -/
theorem C236_required (m : Mode) (names : String → Bool) :
    (∀ d, m = .tls d ∨ m = .p2p d → (Connected true m.first names ↔ names d = true)) ∧
    (m = .tlsSelf → (Connected true m.first names ↔ names "localhost" = true)) ∧
    (m = .p2pSelf → ¬ Connected true m.first names) := by
  refine ⟨?_, ?_, ?_⟩
  · rintro d (h | h) <;> subst h <;> simp [Connected, Mode.first, choose, connects]
  · rintro h; subst h; simp [Connected, Mode.first, choose, connects, selfSignedDomain]
  · rintro h; subst h; simp [Connected, Mode.first, choose, connects]

/-- A certificate is checked, without the requirement too, for every server with a domain. -/
theorem C236_checked (m : Mode) (names : String → Bool) (d : String) (hm : m = .tls d ∨ m = .p2p d)
    (h : names d = false) (require : Bool) : ¬ Connected require m.first names := by
  rcases hm with rfl | rfl <;> cases require <;> simp [Connected, Mode.first, choose, connects, h]

/-! ## C237: a failed attempt does not end a listener -/

/-- Refuted for QUIC, and for the TCP listener that redirects to it: one handshake that fails, and
nobody is let in again, whatever follows. -/
theorem C237_counterexample (s : State) (i : Nat) (hk : s.kind = .quic ∨ s.kind = .signal)
    (hi : i ∈ s.waiting) (es : List Event) :
    (run s (.hand i false :: es)).dead = true ∧ (run s (.hand i false :: es)).out = s.out := by
  have h1 : (step s (.hand i false)).dead = true ∧ (step s (.hand i false)).out = s.out := by
    unfold step
    split
    · rename_i h; exact ⟨h, rfl⟩
    · rcases hk with hk | hk <;> simp [hand, hi, bad, hk]
  show (run (step s (.hand i false)) es).dead = true ∧ (run (step s (.hand i false)) es).out = s.out
  rw [run_dead es _ h1.1]
  exact h1

/-- Refuted for all kinds: an `accept` that fails, as when there are no more descriptors. -/
theorem C237_counterexample_accept (s : State) (es : List Event) :
    (run s (.acceptFails :: es)).dead = true ∧ (run s (.acceptFails :: es)).out = s.out := by
  have h1 : (step s .acceptFails).dead = true ∧ (step s .acceptFails).out = s.out := by
    unfold step
    split
    · rename_i h; exact ⟨h, rfl⟩
    · exact ⟨rfl, rfl⟩
  show (run (step s .acceptFails) es).dead = true ∧ (run (step s .acceptFails) es).out = s.out
  rw [run_dead es _ h1.1]
  exact h1

/-- Refuted for WebSockets: a `set_nodelay` that fails. -/
theorem C237_counterexample_ws (s : State) (hk : s.kind = .ws) (hb : s.backlog ≠ [])
    (es : List Event) :
    (run s (.accept false :: es)).dead = true ∧ (run s (.accept false :: es)).out = s.out := by
  have h1 : (step s (.accept false)).dead = true ∧ (step s (.accept false)).out = s.out := by
    unfold step
    split
    · rename_i h; exact ⟨h, rfl⟩
    · simp only [accept]
      split
      · rename_i h; exact absurd h hb
      · simp [hk]
  show (run (step s (.accept false)) es).dead = true ∧ (run (step s (.accept false)) es).out = s.out
  rw [run_dead es _ h1.1]
  exact h1

/-- And what is merged dies together: when the one listener is dead, the other lets nobody in. -/
theorem C237_counterexample_merged (n : Node) (e : Event)
    (hd : n.main.dead = false ∧ n.extra.dead = false) (h : (step n.extra e).dead = true)
    (es : List (Bool × Event)) : (nrun n ((false, e) :: es)).main = n.main := by
  show (nrun (nstep n (false, e)) es).main = n.main
  have h1 : nstep n (false, e) = { n with extra := step n.extra e } := by
    simp [nstep, hd.1, hd.2]
  rw [h1, nrun_dead es _ (by simp [h])]

/-- A server for QUIC is ended by one TCP client that goes away, while others are being served. -/
example : let n : Node := ⟨run (init .quic) [.arrive 1, .accept true, .hand 1 true, .poll], init .signal⟩
    let t := nrun n [(false, .arrive 2), (false, .accept true), (false, .hand 2 false),
      (true, .arrive 3), (true, .accept true), (true, .hand 3 true), (true, .poll)]
    got t.main = [1] ∧ t.extra.dead = true := by decide

/-- Partial: TCP and TLS listeners live whatever the attempts do, and WebSocket listeners too as
long as `set_nodelay` works.  What is missing: QUIC and the redirection to it; failures of `accept`. -/
theorem C237_partial (k : Kind) (hk : Independent k) (es : List Event)
    (ha : Event.acceptFails ∉ es) (hw : k = .ws → Event.accept false ∉ es) :
    (run (init k) es).dead = false :=
  alive_run es (init k) hk rfl ha hw

/-! ## C238: attempts do not wait for each other -/

/-- Refuted for QUIC: while the first attempt neither ends its handshake nor opens a stream, nobody
is let in. -/
theorem C238_counterexample (s : State) (j : Nat) (hk : s.kind = .quic) (hw : s.waiting = [j])
    (hq : s.queue = []) (es : List Event) (he : ∀ ok, Event.hand j ok ∉ es) :
    (run s es).out = s.out :=
  dawdle_run es s hk hw hq he

example : (run (init .quic) [.arrive 1, .arrive 2, .accept true]).waiting = [1] ∧
    (run (init .quic) [.arrive 1, .arrive 2, .accept true]).backlog = [2] := by decide

/-- Partial: with TCP, TLS and WebSockets, whatever the others did before, an attempt that has
arrived and has not failed is let in by its own handshake alone, without any other attempt
ending.  What is missing: QUIC. -/
theorem C238_partial (k : Kind) (hk : Independent k) (es : List Event) (i : Nat)
    (hc : ∀ e, e ∈ es → Calm e) (hi : Event.arrive i ∈ es) (hf : Event.hand i false ∉ es) :
    ∃ n m, i ∈ got (run (run (init k) es)
      (List.replicate n (.accept true) ++ .hand i true :: List.replicate m .poll)) := by
  have hh := arrive_has es (init k) hk rfl hi hc hf
  have hd : (run (init k) es).dead = false := by
    refine alive_run es (init k) hk rfl ?_ ?_
    · intro h; exact hc _ h
    · intro _ h; have := hc _ h; cases this
  have hkind : Independent (run (init k) es).kind := by rw [kind_run]; exact hk
  generalize run (init k) es = s at hh hd hkind
  have h1 := accepts s.backlog.length s hkind hd rfl
  have hcalm : ∀ e, e ∈ List.replicate s.backlog.length (Event.accept true) → Calm e := by
    intro e he; rw [List.eq_of_mem_replicate he]; rfl
  have hh1 := has_run (List.replicate s.backlog.length (.accept true)) s i hkind hh hcalm
    (fun h => by have := List.eq_of_mem_replicate h; cases this)
  rw [h1] at hh1
  have hd1 : (run s (List.replicate s.backlog.length (.accept true))).dead = false := by
    rw [h1]; exact hd
  have hk1 : Independent (run s (List.replicate s.backlog.length (.accept true))).kind := by
    rw [h1]; exact hkind
  have hb1 : (run s (List.replicate s.backlog.length (.accept true))).backlog = [] := by rw [h1]
  rw [← h1] at hh1
  generalize ht : run s (List.replicate s.backlog.length (.accept true)) = t at hh1 hd1 hk1 hb1
  have hu : some i ∈ (step t (.hand i true)).queue ++ (step t (.hand i true)).out := by
    by_cases hw : i ∈ t.waiting
    · have : (step t (.hand i true)).queue = t.queue ++ [some i] := by
        rcases hk1 with h | h | h <;> simp [step, hd1, hand, hw, good, h]
      rw [this]; simp
    · have hs : step t (.hand i true) = t := by simp [step, hd1, hand, hw]
      rw [hs]
      rcases hh1 with h | h | h | h
      · rw [hb1] at h; cases h
      · exact absurd h hw
      · exact List.mem_append_left _ h
      · exact List.mem_append_right _ h
  have hdu : (step t (.hand i true)).dead = false :=
    alive_step hk1 hd1 _ (by simp) (by simp)
  refine ⟨s.backlog.length, (step t (.hand i true)).queue.length, ?_⟩
  rw [run_append, ht]
  show i ∈ got (run (step t (.hand i true)) _)
  rw [polls _ _ hdu rfl]
  simp only [got, List.mem_filterMap, id]
  refine ⟨some i, ?_, rfl⟩
  rcases List.mem_append.mp hu with h | h
  · exact List.mem_append_right _ h
  · exact List.mem_append_left _ h

/-- Many that dawdle, and one that is let in. -/
example : got (run (init .tls) [.arrive 1, .arrive 2, .accept true, .arrive 3, .accept true,
    .hand 1 false, .accept true, .hand 3 true, .poll]) = [3] := by decide

/-! ## C239: the node gets attempts that succeeded, and each of them once -/

theorem C239_real (k : Kind) (es : List Event) (i : Nat) (h : i ∈ got (run (init k) es)) :
    Event.arrive i ∈ es ∧ Event.hand i true ∈ es := by
  have hi := inv_run es (init k) [] (inv_init k)
  rw [List.nil_append] at hi
  simp only [got, List.mem_filterMap, id] at h
  obtain ⟨x, hx, rfl⟩ := h
  exact hi.won i (List.mem_append_right _ hx)

theorem C239_once (k : Kind) (es : List Event) (hn : (arrived es).Nodup) :
    (got (run (init k) es)).Nodup := by
  have hi := inv_run es (init k) [] (inv_init k)
  rw [List.nil_append] at hi
  rw [List.nodup_iff_count]
  intro i
  have h1 := hi.count i
  have h2 := List.nodup_iff_count.mp hn i
  have h3 : ∀ l : List (Option Nat), (l.filterMap id).count i = l.count (some i) := by
    intro l
    induction l with
    | nil => rfl
    | cons x l ih => cases x <;> simp [List.count_cons, ih]
  unfold got
  rw [h3]
  simp only [List.count_append] at h1
  omega

/-- The listener that redirects to QUIC gives the node nothing. -/
theorem C239_redirect (es : List Event) : (run (init .signal) es).out = [] := by
  have key : ∀ (es : List Event) (s : State), s.kind = .signal → s.queue = [] → s.out = [] →
      (run s es).out = [] := by
    intro es
    induction es with
    | nil => intro s _ _ h; exact h
    | cons e es ih =>
      intro s hk hq ho
      have hs : (step s e).queue = [] ∧ (step s e).out = [] := by
        unfold step
        split
        · exact ⟨hq, ho⟩
        · cases e with
          | arrive i => exact ⟨hq, ho⟩
          | accept o =>
            simp only [accept]
            split
            · exact ⟨hq, ho⟩
            · cases o <;> simp [hk, bad, hq, ho]
          | acceptFails => exact ⟨hq, ho⟩
          | hand i ok =>
            simp only [hand]
            split
            · cases ok <;> simp [hk, bad, good, hq, ho]
            · exact ⟨hq, ho⟩
          | poll => simp [poll, hq, ho]
      exact ih (step s e) (by rw [kind_step]; exact hk) hs.1 hs.2
  exact key es (init .signal) rfl rfl rfl

example : got (run (init .tcp) [.arrive 1, .arrive 2, .accept true, .accept true, .hand 2 true,
    .hand 1 true, .poll, .poll]) = [2, 1] := by decide

/-- What comes to one of two merged listeners leaves the other as it is. -/
theorem C239_apart (n : Node) (b : Bool) (es : List (Bool × Event)) (h : ∀ e ∈ es, e.1 = b) :
    (b = true → (nrun n es).extra = n.extra) ∧ (b = false → (nrun n es).main = n.main) := by
  induction es generalizing n with
  | nil => exact ⟨fun _ => rfl, fun _ => rfl⟩
  | cons e es ih =>
    have h1 := ih (nstep n e) (fun x hx => h x (List.mem_cons_of_mem _ hx))
    have h2 := h e (List.mem_cons_self ..)
    refine ⟨fun hb => (h1.1 hb).trans ?_, fun hb => (h1.2 hb).trans ?_⟩
    · unfold nstep
      split
      · rfl
      · rw [h2, hb]; rfl
    · unfold nstep
      split
      · rfl
      · rw [h2, hb]; rfl

end Verif.Listen

import Verif.OneConn.Model
/-
C151: the kernel for one connection makes the calls its settings ask for, runs the function of the user once, and passes
the events on.
-/
namespace Verif.OneConn

/-! ### Spec -/

/-- A call of one of the methods `with_…` of the builder. -/
inductive Mod where
  | psk (k : Nat)
  | udp (u : Bool)
  | security (x : Nat)
deriving DecidableEq, Repr

def Mod.on (b : Builder) : Mod → Builder
  | .psk k => b.withPsk k
  | .udp u => b.withUdp u
  | .security x => b.withSecurity x

/-- The last value chosen for each of the three settings. -/
def lastPsk (ms : List Mod) : Option Nat := (ms.filterMap fun m => match m with | .psk k => some k | _ => none).getLast?
def lastUdp (ms : List Mod) : Option Bool := (ms.filterMap fun m => match m with | .udp u => some u | _ => none).getLast?
def lastSecurity (ms : List Mod) : Option Nat :=
  (ms.filterMap fun m => match m with | .security x => some x | _ => none).getLast?

/-- What the user asked for. -/
inductive Wish where
  | transient (addr uuid : Nat)
  | registration (addr user alias_ pass : Nat)
  | login (addr user pass : Nat)
deriving DecidableEq, Repr

def Wish.builder : Wish → Builder
  | .transient a u => OneConn.transient a u
  | .registration a u n p => OneConn.registration a u n p
  | .login a u p => OneConn.login a u p

def Wish.addr : Wish → Nat
  | .transient a _ => a
  | .registration a _ _ _ => a
  | .login a _ _ => a

/-- The calls a wish can lead to, in full: `a` is the resolved address. -/
def Wish.calls (w : Wish) (a : Nat) (udp : Bool) (security : Nat) (psk : Option Nat) : List (List Call) :=
  match w with
  | .transient _ u => [[.connect (.inl (a, u)) udp security psk]]
  | .login _ u p => [[.connect (.inr (u, p)) udp security psk]]
  | .registration _ u n p =>
    [[.exists_ u, .connect (.inr (u, p)) udp security psk],
     [.exists_ u, .register a u n p security psk, .connect (.inr (u, p)) udp security psk]]

def events (as : List Act) : List Nat := as.filterMap fun a => match a with | .event e => some e | _ => none
def files (as : List Act) : List Nat := as.filterMap fun a => match a with | .file h => some h | _ => none

/-! ### Settings -/

def Settings.of (w : Wish) (a : Nat) (udp : Bool) (security : Nat) (psk : Option Nat) : Settings where
  auth := match w with
    | .transient _ u => .transient a u
    | .registration _ u n p => .register a u n p
    | .login _ u p => .connect u p
  udp := udp
  security := security
  psk := psk

theorem last_cons {α β : Type} (f : α → Option β) (a : α) (l : List α) :
    ((a :: l).filterMap f).getLast? = ((l.filterMap f).getLast?).or (f a) := by
  cases h : f a with
  | none => rw [List.filterMap_cons_none h, Option.or_none]
  | some k => rw [List.filterMap_cons_some h, List.getLast?_cons]; cases (l.filterMap f).getLast? <;> rfl

theorem mods (ms : List Mod) (b : Builder) :
    ms.foldl Mod.on b = { b with
      psk := (lastPsk ms).or b.psk
      udp := (lastUdp ms).or b.udp
      security := (lastSecurity ms).or b.security } := by
  induction ms generalizing b with
  | nil => rfl
  | cons m ms ih =>
    rw [List.foldl_cons, ih]
    simp only [lastPsk, lastUdp, lastSecurity, last_cons]
    cases m <;> simp only [Mod.on, Builder.withPsk, Builder.withUdp, Builder.withSecurity, Option.or_assoc, Option.some_or,
      Option.none_or]

/-- Whatever the user chooses, `build` works exactly if the address resolves, and the settings are those chosen last. -/
theorem C151_settings (resolve : Nat → Option Nat) (dflt : Nat) (w : Wish) (ms : List Mod) :
    (ms.foldl Mod.on w.builder).build resolve dflt =
      (resolve w.addr).map fun a =>
        Settings.of w a ((lastUdp ms).getD false) ((lastSecurity ms).getD dflt) (lastPsk ms) := by
  rw [mods]
  cases w <;> simp only [Wish.builder, OneConn.transient, registration, login, base, Builder.build, Wish.addr] <;>
    cases resolve _ <;> simp [Settings.of]

/-- The address given for a login is not part of the settings. -/
theorem C151_counterexample_login_address (resolve : Nat → Option Nat) (dflt a b u p : Nat) (ha : (resolve a).isSome)
    (hb : (resolve b).isSome) (ms : List Mod) :
    (ms.foldl Mod.on (login a u p)).build resolve dflt = (ms.foldl Mod.on (login b u p)).build resolve dflt := by
  have h1 := C151_settings resolve dflt (.login a u p) ms
  have h2 := C151_settings resolve dflt (.login b u p) ms
  simp only [Wish.builder, Wish.addr] at h1 h2
  rw [h1, h2]
  obtain ⟨x, hx⟩ := Option.isSome_iff_exists.mp ha
  obtain ⟨y, hy⟩ := Option.isSome_iff_exists.mp hb
  simp [hx, hy, Settings.of]

/-! ### Calls -/

/-- Which calls were made in which phase. -/
structure Inv (w : Wish) (a : Nat) (as : List Act) (s : St) : Prop where
  set : s.set = Settings.of w a s.set.udp s.set.security s.set.psk
  idle : s.ph = .idle → s.calls = [] ∧ s.fresh = true
  fresh : s.fresh = true → s.ph = .idle
  asking : ∀ x u n p, s.ph = .asking x u n p → ∃ x', w = .registration x' u n p ∧ x = a ∧ s.calls = [.exists_ u]
  registering : ∀ u p, s.ph = .registering u p → ∃ x' n, w = .registration x' u n p ∧
    s.calls = [.exists_ u, .register a u n p s.set.security s.set.psk]
  rest : ∃ full ∈ w.calls a s.set.udp s.set.security s.set.psk, s.calls <+: full
  full : s.ph = .connecting ∨ s.handled ≠ [] → s.calls ∈ w.calls a s.set.udp s.set.security s.set.psk
  once : s.handled = [] ∨ ∃ c, s.handled = [c] ∧ .connected (some c) ∈ as
  run : s.ph = .running → s.handled ≠ []
  early : s.ph = .idle ∨ (∃ x u n p, s.ph = .asking x u n p) ∨ (∃ u p, s.ph = .registering u p) ∨ s.ph = .connecting →
    s.handled = []
  ok : s.ph = .returned true → s.handled ≠ [] ∧ .done true ∈ as
  sig : s.signals = none ↔ s.handled = []

theorem Inv.new (w : Wish) (a : Nat) (udp : Bool) (security : Nat) (psk : Option Nat) :
    Inv w a [] (new (Settings.of w a udp security psk)) := by
  constructor <;> simp [OneConn.new, Settings.of]
  cases w <;> simp [Wish.calls]

theorem Inv.mono {w : Wish} {a : Nat} {as : List Act} {s : St} (h : Inv w a as s) (b : Act) : Inv w a (as ++ [b]) s := by
  refine { h with once := ?_, ok := ?_ }
  · rcases h.once with h | ⟨c, h1, h2⟩
    · exact .inl h
    · exact .inr ⟨c, h1, List.mem_append_left _ h2⟩
  · intro hp; exact ⟨(h.ok hp).1, List.mem_append_left _ (h.ok hp).2⟩

theorem connectCall_inv {w : Wish} {a : Nat} {as : List Act} {s : St} (auth : (Nat × Nat) ⊕ (Nat × Nat))
    (h1 : s.set = Settings.of w a s.set.udp s.set.security s.set.psk) (h2 : s.fresh = false)
    (h3 : s.calls ++ [.connect auth s.set.udp s.set.security s.set.psk] ∈ w.calls a s.set.udp s.set.security s.set.psk)
    (h4 : s.handled = []) (h5 : s.signals = none) : Inv w a as (connectCall s auth) := by
  constructor <;> simp [connectCall, h2, h3, h4, h5]
  · exact h1
  · exact ⟨_, h3, List.prefix_refl _⟩

theorem Inv.step {w : Wish} {a : Nat} {as : List Act} {s : St} (h : Inv w a as s) (b : Act) :
    Inv w a (as ++ [b]) (step s b) := by
  have hm := h.mono b
  cases b with
  | start =>
    simp only [OneConn.step]
    split
    · exact hm
    · rename_i hnp
      split
      · rename_i hf
        have hp := h.fresh hf
        have hi := h.idle hp
        have hh := h.early (.inl hp)
        have hsig := h.sig.mpr hh
        have hset := h.set
        cases w with
        | transient x u =>
          have he : s.set.auth = .transient a u := by rw [hset]; rfl
          rw [he]
          refine connectCall_inv _ hset rfl ?_ hh hsig
          simp [Wish.calls, hi.1]
        | login x u p =>
          have he : s.set.auth = .connect u p := by rw [hset]; rfl
          rw [he]
          refine connectCall_inv _ hset rfl ?_ hh hsig
          simp [Wish.calls, hi.1]
        | registration x u n p =>
          have he : s.set.auth = .register a u n p := by rw [hset]; rfl
          rw [he]
          constructor <;> simp [hi.1, hh, hsig]
          · exact hset
          · rintro _ _ _ _ rfl rfl rfl rfl; simp
          · simp [Wish.calls]
      · rename_i hf
        have hf' : s.fresh = false := by simpa using hf
        refine { hm with idle := ?_, fresh := ?_, asking := ?_, registering := ?_, full := ?_, run := ?_, early := ?_, ok := ?_ }
        · simp
        · simp [hf']
        · simp
        · simp
        · simpa using fun hx => h.full (.inr hx)
        · simp
        · simp
        · simp
  | known r =>
    simp only [OneConn.step]
    split
    · rename_i x u n p hp
      obtain ⟨x', rfl, rfl, hcalls⟩ := h.asking _ _ _ _ hp
      have hh := h.early (.inr (.inl ⟨_, _, _, _, hp⟩))
      have hsig := h.sig.mpr hh
      have hf : s.fresh = false := by
        cases hf : s.fresh with
        | false => rfl
        | true => have := h.fresh hf; rw [hp] at this; cases this
      split
      · constructor <;> simp [hf, hh, hsig]
        · exact h.set
        · exact h.rest
      · refine connectCall_inv _ h.set hf ?_ hh hsig
        simp [Wish.calls, hcalls]
      · constructor <;> simp [hf, hh, hsig, hcalls]
        · exact h.set
        · simp [Wish.calls]
    · exact hm
  | registered ok =>
    simp only [OneConn.step]
    split
    · rename_i u p hp
      obtain ⟨x', n, rfl, hcalls⟩ := h.registering _ _ hp
      have hh := h.early (.inr (.inr (.inl ⟨_, _, hp⟩)))
      have hsig := h.sig.mpr hh
      have hf : s.fresh = false := by
        cases hf : s.fresh with
        | false => rfl
        | true => have := h.fresh hf; rw [hp] at this; cases this
      split
      · refine connectCall_inv _ h.set hf ?_ hh hsig
        simp [Wish.calls, hcalls]
      · constructor <;> simp [hf, hh, hsig]
        · exact h.set
        · exact h.rest
    · exact hm
  | connected r =>
    simp only [OneConn.step]
    split
    · rename_i hp
      have hh := h.early (.inr (.inr (.inr hp)))
      have hsig := h.sig.mpr hh
      have hfull := h.full (.inl hp)
      have hf : s.fresh = false := by
        cases hf : s.fresh with
        | false => rfl
        | true => have := h.fresh hf; rw [hp] at this; cases this
      split
      · constructor <;> simp [hf, hh, hsig]
        · exact h.set
        · exact h.rest
      · constructor <;> simp [hf, hh, hfull]
        · exact h.set
        · exact h.rest
    · exact hm
  | done ok =>
    simp only [OneConn.step]
    split
    · rename_i hp
      have hh := h.run hp
      have hf : s.fresh = false := by
        cases hf : s.fresh with
        | false => rfl
        | true => have := h.fresh hf; rw [hp] at this; cases this
      refine { hm with idle := ?_, fresh := ?_, asking := ?_, registering := ?_, full := ?_, run := ?_, early := ?_, ok := ?_ }
      · simp
      · simp [hf]
      · simp
      · simp
      · intro _; exact h.full (.inr hh)
      · simp
      · simp
      · intro e; simp at e; subst e; exact ⟨hh, by simp⟩
    · exact hm
  | event e =>
    simp only [OneConn.step]
    split
    · exact hm
    · rename_i l hl
      split
      · exact hm
      · refine { hm with sig := ?_ }
        have := h.sig
        rw [hl] at this
        simpa using this
  | file x => simp only [OneConn.step]; split <;> exact { hm with }
  | dropSignals => simp only [OneConn.step]; split <;> exact { hm with }
  | dropFiles => simp only [OneConn.step]; split <;> exact { hm with }

theorem Inv.run' {w : Wish} {a : Nat} {as : List Act} {s : St} (h : Inv w a as s) (bs : List Act) :
    Inv w a (as ++ bs) (OneConn.run s bs) := by
  induction bs generalizing s as with
  | nil => rw [List.append_nil]; exact h
  | cons b bs ih => have := ih (h.step b); rwa [List.append_assoc] at this

theorem run_set (s : St) (as : List Act) : (run s as).set = s.set := by
  induction as generalizing s with
  | nil => rfl
  | cons a as ih =>
    show (run (step s a) as).set = _
    rw [ih]
    cases a <;> simp only [step, connectCall] <;> (repeat' split) <;> rfl

theorem run_append (s : St) (as bs : List Act) : run s (as ++ bs) = run (run s as) bs := by simp [run, List.foldl_append]

/-- The calls are the beginning of those the wish leads to, with the settings that were chosen. -/
theorem C151_calls (w : Wish) (a : Nat) (udp : Bool) (security : Nat) (psk : Option Nat) (as : List Act) :
    ∃ full ∈ w.calls a udp security psk, (run (new (Settings.of w a udp security psk)) as).calls <+: full := by
  have h := (Inv.new w a udp security psk).run' as
  have hs := run_set (new (Settings.of w a udp security psk)) as
  have := h.rest
  rw [hs] at this
  exact this

/-- The function of the user runs at most once, for a connection the node made after all the calls. -/
theorem C151_once (w : Wish) (a : Nat) (udp : Bool) (security : Nat) (psk : Option Nat) (as : List Act) :
    (run (new (Settings.of w a udp security psk)) as).handled = [] ∨
    ∃ c, (run (new (Settings.of w a udp security psk)) as).handled = [c] ∧ .connected (some c) ∈ as ∧
      (run (new (Settings.of w a udp security psk)) as).calls ∈ w.calls a udp security psk := by
  have h := (Inv.new w a udp security psk).run' as
  have hs := run_set (new (Settings.of w a udp security psk)) as
  rw [List.nil_append] at h
  rcases h.once with h1 | ⟨c, h1, h2⟩
  · exact .inl h1
  · have := h.full (.inr (by rw [h1]; simp))
    rw [hs] at this
    exact .inr ⟨c, h1, h2, this⟩

/-- The kernel returns success only if the function of the user ran and returned it. -/
theorem C151_success (w : Wish) (a : Nat) (udp : Bool) (security : Nat) (psk : Option Nat) (as : List Act)
    (h : (run (new (Settings.of w a udp security psk)) as).ph = .returned true) :
    (∃ c, (run (new (Settings.of w a udp security psk)) as).handled = [c]) ∧ .done true ∈ as := by
  have hi := (Inv.new w a udp security psk).run' as
  rw [List.nil_append] at hi
  refine ⟨?_, (hi.ok h).2⟩
  rcases hi.once with h1 | ⟨c, h1, _⟩
  · exact absurd h1 (hi.ok h).1
  · exact ⟨c, h1⟩

/-- The answers of the node and of the function of the user, without what else happens. -/
def answers (as : List Act) : List Act :=
  as.filter fun a => match a with | .event _ => false | .file _ => false | .dropSignals => false | .dropFiles => false | _ => true

/-- Two states that differ only in what became of events and files. -/
structure Same (s t : St) : Prop where
  set : s.set = t.set
  fresh : s.fresh = t.fresh
  ph : s.ph = t.ph
  calls : s.calls = t.calls
  handled : s.handled = t.handled

theorem same_step {s t : St} (h : Same s t) (a : Act) : Same (step s a) (step t a) := by
  obtain ⟨set, fresh, ph, calls, handled, signals, files, ns, nf⟩ := s
  obtain ⟨set', fresh', ph', calls', handled', signals', files', ns', nf'⟩ := t
  obtain ⟨h1, h2, h3, h4, h5⟩ := h
  simp only at h1 h2 h3 h4 h5
  subst h1 h2 h3 h4 h5
  cases a <;> simp only [step, connectCall] <;> (repeat' split) <;> first | exact ⟨rfl, rfl, rfl, rfl, rfl⟩ | simp_all

theorem same_skip (s : St) (a : Act) (h : answers [a] = []) : Same (step s a) s := by
  cases a <;> simp only [answers, List.filter, reduceCtorEq] at h <;> simp only [step] <;> (repeat' split) <;>
    exact ⟨rfl, rfl, rfl, rfl, rfl⟩

theorem same_answers {s t : St} (h : Same s t) (as : List Act) : Same (run s as) (run t (answers as)) := by
  induction as generalizing s t with
  | nil => exact h
  | cons a as ih =>
    by_cases hx : answers [a] = []
    · have : answers (a :: as) = answers as := by
        rw [show a :: as = [a] ++ as from rfl, answers, List.filter_append]
        have hx' : List.filter _ [a] = [] := hx
        rw [hx']; rfl
      rw [this]
      have hs := same_skip s a hx
      exact ih (s := step s a) ⟨hs.set.trans h.set, hs.fresh.trans h.fresh, hs.ph.trans h.ph, hs.calls.trans h.calls,
        hs.handled.trans h.handled⟩
    · have : answers (a :: as) = a :: answers as := by
        cases a <;> first | rfl | exact absurd rfl hx
      rw [this]
      exact ih (same_step h a)

/-- The answers that lead to a connection: none for a login and a temporary account; for a registration, that the name
is known, or that it is not and the registration succeeds. -/
def Wish.way : Wish → List (List Act)
  | .registration _ _ _ _ => [[.known (some true)], [.known (some false), .registered true]]
  | _ => [[]]

/-- If the node answers in this way the function of the user is called with the connection, and what it returns is what
the kernel returns, whatever events and files come in between. -/
theorem C151_connects (w : Wish) (a : Nat) (udp : Bool) (security : Nat) (psk : Option Nat) (as : List Act) (way : List Act)
    (hw : way ∈ w.way) (c : Nat) (ok : Bool) (h : answers as = .start :: way ++ [.connected (some c), .done ok]) :
    (run (new (Settings.of w a udp security psk)) as).ph = .returned ok ∧
    (run (new (Settings.of w a udp security psk)) as).handled = [c] ∧
    (run (new (Settings.of w a udp security psk)) as).calls ∈ w.calls a udp security psk := by
  have hs := same_answers (s := new (Settings.of w a udp security psk)) ⟨rfl, rfl, rfl, rfl, rfl⟩ as
  rw [h] at hs
  rw [hs.ph, hs.handled, hs.calls]
  cases w with
  | registration x u n p =>
    simp only [Wish.way, List.mem_cons, List.not_mem_nil, or_false] at hw
    rcases hw with rfl | rfl <;> simp [run, step, new, Settings.of, connectCall, Wish.calls]
  | _ =>
    simp only [Wish.way, List.mem_cons, List.not_mem_nil, or_false] at hw
    subst hw
    simp [run, step, new, Settings.of, connectCall, Wish.calls]

/-- An error of the node is returned, and the function of the user is not called. -/
theorem C151_fails (w : Wish) (a : Nat) (udp : Bool) (security : Nat) (psk : Option Nat) (as : List Act) (way : List Act)
    (hw : way ∈ w.way) (h : answers as = .start :: way ++ [.connected none] ∨
      (∃ x u n p, w = .registration x u n p) ∧
        (answers as = [.start, .known none] ∨ answers as = [.start, .known (some false), .registered false])) :
    (run (new (Settings.of w a udp security psk)) as).ph = .returned false ∧
    (run (new (Settings.of w a udp security psk)) as).handled = [] := by
  have hs := same_answers (s := new (Settings.of w a udp security psk)) ⟨rfl, rfl, rfl, rfl, rfl⟩ as
  rw [hs.ph, hs.handled]
  rcases h with h | ⟨⟨x, u, n, p, rfl⟩, h | h⟩
  · rw [h]
    cases w with
    | registration x u n p =>
      simp only [Wish.way, List.mem_cons, List.not_mem_nil, or_false] at hw
      rcases hw with rfl | rfl <;> simp [run, step, new, Settings.of, connectCall]
    | _ =>
      simp only [Wish.way, List.mem_cons, List.not_mem_nil, or_false] at hw
      subst hw
      simp [run, step, new, Settings.of, connectCall]
  · rw [h]; simp [run, step, new, Settings.of]
  · rw [h]; simp [run, step, new, Settings.of]

/-! ### Events -/

theorem signals_run {s : St} {l : List Nat} (as : List Act) (hs : s.signals = some l) (hn : s.noSignals = false)
    (hc : s.ph ≠ .connecting) (hf : s.fresh = false) (hx : (∀ u p, s.ph ≠ .registering u p) ∧ ∀ x u n p, s.ph ≠ .asking x u n p)
    (hd : Act.dropSignals ∉ as) : (run s as).signals = some (l ++ events as) := by
  induction as generalizing s l with
  | nil => simp [run, events, hs]
  | cons a as ih =>
    have hd' : Act.dropSignals ∉ as := fun e => hd (List.mem_cons_of_mem _ e)
    show (run (step s a) as).signals = _
    cases a with
    | event e =>
      have : step s (.event e) = { s with signals := some (l ++ [e]) } := by simp [step, hs, hn]
      rw [this, ih (s := { s with signals := some (l ++ [e]) }) rfl hn hc hf hx hd']
      simp [events]
    | dropSignals => exact absurd List.mem_cons_self hd
    | start =>
      have hev : events (.start :: as) = events as := by simp [events]
      rw [hev]
      simp only [step]
      split
      · exact ih hs hn hc hf hx hd'
      · rw [if_neg (by simp [hf])]
        exact ih (s := { s with ph := .panicked }) hs hn (by simp) hf (by simp) hd'
    | known r =>
      have hev : events (.known r :: as) = events as := by simp [events]
      rw [hev]
      simp only [step]
      split
      · rename_i hp; exact absurd hp (hx.2 _ _ _ _)
      · exact ih hs hn hc hf hx hd'
    | registered ok =>
      have hev : events (.registered ok :: as) = events as := by simp [events]
      rw [hev]
      simp only [step]
      split
      · rename_i hp; exact absurd hp (hx.1 _ _)
      · exact ih hs hn hc hf hx hd'
    | connected r =>
      have hev : events (.connected r :: as) = events as := by simp [events]
      rw [hev]
      have hst : step s (.connected r) = s := by
        simp only [step]
      rw [hst]
      exact ih hs hn hc hf hx hd'
    | done ok =>
      have hev : events (.done ok :: as) = events as := by simp [events]
      rw [hev]
      simp only [step]
      split
      · exact ih (s := { s with ph := .returned ok }) hs hn (by simp) hf (by simp) hd'
      · exact ih hs hn hc hf hx hd'
    | file x =>
      have hev : events (.file x :: as) = events as := by simp [events]
      rw [hev]
      simp only [step]
      split
      · exact ih hs hn hc hf hx hd'
      · exact ih (s := { s with files := s.files ++ [x] }) hs hn hc hf hx hd'
    | dropFiles =>
      have hev : events (.dropFiles :: as) = events as := by simp [events]
      rw [hev]
      simp only [step]
      split
      · exact ih hs hn hc hf hx hd'
      · exact ih (s := { s with noFiles := true }) hs hn hc hf hx hd'

theorem noSignals_run {w : Wish} {a : Nat} {s : St} {as0 : List Act} (hi : Inv w a as0 s) (hn : s.handled = [] → s.noSignals = false)
    (as : List Act) : (run s as).handled = [] → (run s as).noSignals = false := by
  induction as generalizing s as0 with
  | nil => exact hn
  | cons b as ih =>
    refine ih (hi.step b) ?_
    cases b <;> simp only [step, connectCall] <;> (repeat' split) <;> first | exact hn | (intro h; simp_all)

/-- After the connection is made, every event reaches the user, in order; all earlier events are lost. -/
theorem C151_events (w : Wish) (a : Nat) (udp : Bool) (security : Nat) (psk : Option Nat) (as bs : List Act) (c : Nat)
    (hp : (run (new (Settings.of w a udp security psk)) as).ph = .connecting) (hd : Act.dropSignals ∉ bs) :
    (run (new (Settings.of w a udp security psk)) (as ++ .connected (some c) :: bs)).signals = some (events bs) := by
  have h := (Inv.new w a udp security psk).run' as
  have hn := noSignals_run (Inv.new w a udp security psk) (fun _ => rfl) as
  rw [run_append]
  generalize run (new (Settings.of w a udp security psk)) as = s at *
  have hh := h.early (.inr (.inr (.inr hp)))
  have hf : s.fresh = false := by
    cases hf : s.fresh with
    | false => rfl
    | true => have := h.fresh hf; rw [hp] at this; cases this
  have : step s (.connected (some c)) = { s with ph := .running, handled := s.handled ++ [c], signals := some [] } := by
    simp [step, hp]
  show (run (step s (.connected (some c))) bs).signals = _
  rw [this]
  have := signals_run (s := { s with ph := .running, handled := s.handled ++ [c], signals := some [] }) (l := []) bs rfl (hn hh)
    (by simp) hf (by simp) hd
  simpa using this

/-- No object transfer handle is lost, not even one that comes before the connection is made. -/
theorem C151_files (set : Settings) (as : List Act) (hd : Act.dropFiles ∉ as) : (run (new set) as).files = files as := by
  suffices H : ∀ (as : List Act) (s : St), s.noFiles = false → Act.dropFiles ∉ as → (run s as).files = s.files ++ files as by
    simpa [new] using H as (new set) rfl hd
  intro as
  induction as with
  | nil => intro s _ _; simp [run, files]
  | cons a as ih =>
    intro s hn hd
    have hd' : Act.dropFiles ∉ as := fun e => hd (List.mem_cons_of_mem _ e)
    have hne : a ≠ .dropFiles := fun e => hd (by rw [e]; exact List.mem_cons_self)
    have hn' : (step s a).noFiles = false := by
      cases a <;> simp only [step, connectCall] <;> (repeat' split) <;> first | exact hn | exact absurd rfl hne
    show (run (step s a) as).files = _
    rw [ih _ hn' hd']
    cases a with
    | file x => simp [step, hn, files]
    | dropFiles => exact absurd rfl hne
    | _ =>
      have : ∀ b : Act, (∀ x, b ≠ .file x) → (step s b).files = s.files := by
        intro b hb
        cases b <;> simp only [step, connectCall] <;> (repeat' split) <;> first | rfl | exact absurd rfl (hb _)
      rw [this _ (by simp)]
      simp [files]

/-- An event that comes before the connection is made is lost. -/
theorem C151_counterexample_early (w : Wish) (a : Nat) (udp : Bool) (security : Nat) (psk : Option Nat) (as : List Act)
    (e : Nat) (h : (run (new (Settings.of w a udp security psk)) as).handled = []) :
    run (new (Settings.of w a udp security psk)) (as ++ [.event e]) = run (new (Settings.of w a udp security psk)) as := by
  have hi := (Inv.new w a udp security psk).run' as
  rw [run_append]
  generalize run (new (Settings.of w a udp security psk)) as = s at *
  simp [run, step, hi.sig.mpr h]

/-- A registration with its settings, from the builder to the calls. -/
def wish : Wish := .registration 1 2 3 4
example : ([Mod.udp true, .psk 7, .udp false, .psk 8].foldl Mod.on wish.builder).build (fun a => some (a + 10)) 5 =
    some (Settings.of wish 11 false 5 (some 8)) := by decide
def acts : List Act :=
  [.event 1, .file 2, .start, .known (some false), .event 3, .registered true, .connected (some 6), .event 4, .file 5,
   .event 6, .done true]
example : (run (new (Settings.of wish 11 false 5 (some 8))) acts).calls =
    [.exists_ 2, .register 11 2 3 4 5 (some 8), .connect (.inr (2, 4)) false 5 (some 8)] ∧
    (run (new (Settings.of wish 11 false 5 (some 8))) acts).handled = [6] ∧
    (run (new (Settings.of wish 11 false 5 (some 8))) acts).signals = some [4, 6] ∧
    (run (new (Settings.of wish 11 false 5 (some 8))) acts).files = [2, 5] ∧
    (run (new (Settings.of wish 11 false 5 (some 8))) acts).ph = .returned true := by decide
example : (run (new (Settings.of wish 11 false 5 (some 8))) (acts.take 6)).ph = .connecting ∧
    Act.dropSignals ∉ acts.drop 7 := by decide
example : answers acts = .start :: [.known (some false), .registered true] ++ [.connected (some 6), .done true] ∧
    [.known (some false), .registered true] ∈ wish.way := by decide

end Verif.OneConn

import Verif.GroupChan.Inv
/-
Properties of the channels of groups.
-/
namespace Verif.GroupChan

/-! ### C204: what a stream carries -/

/-- What is known about channel `n` after the signals of `l` have arrived. -/
def Carries (o : Bool) (l : List (Sig × Place)) (n : Nat) (isOpen : Bool) : Prop :=
  ∃ pre x mid post, l.map (·.1) = pre ++ x :: (mid ++ post) ∧ opens x = true ∧ pre.countP opens = n ∧
    streamOf n l = mid.filter (told o) ∧ (∀ y ∈ mid, opens y = false) ∧ (∀ y ∈ mid.dropLast, ends y = false) ∧
    (isOpen = true → post = [] ∧ ∀ y ∈ mid, ends y = false) ∧
    (isOpen = false → ∃ y, mid.getLast? = some y ∧ ends y = true)

/-- The stream of channel `n` is read. -/
def Read (s : State) (n : Nat) : Prop := ∃ h, s.hs[n]? = some h ∧ h.recv = true

structure Kept (s : State) (l : List (Sig × Place)) : Prop where
  number : (l.map (·.1)).countP opens = s.hs.length
  reg : ∀ n, s.reg = some n → n < s.hs.length
  future : ∀ n, s.hs.length ≤ n → streamOf n l = []
  carry : ∀ n, Read s n → Carries s.owner l n (s.reg == some n)

theorem streamOf_snoc (n : Nat) (l : List (Sig × Place)) (g : Sig) (p : Place) :
    streamOf n (l ++ [(g, p)]) = streamOf n l ++ if p = .stream n then [g] else [] := by
  simp only [streamOf, List.filter_append, List.map_append]
  by_cases h : p = .stream n
  · simp [h]
  · simp [h]

/-- Nothing more for a closed channel, whatever arrives. -/
theorem carries_closed {o : Bool} {l : List (Sig × Place)} {n : Nat} (h : Carries o l n false) (g : Sig) (p : Place)
    (hp : p ≠ .stream n) : Carries o (l ++ [(g, p)]) n false := by
  obtain ⟨pre, x, mid, post, h1, h2, h3, h4, h5, h6, h7, h8⟩ := h
  refine ⟨pre, x, mid, post ++ [g], by simp [h1], h2, h3, ?_, h5, h6, by simp, h8⟩
  rw [streamOf_snoc, h4]; simp [hp]

/-- An open channel goes on. -/
theorem carries_open {o : Bool} {l : List (Sig × Place)} {n : Nat} (h : Carries o l n true) (g : Sig) (p : Place)
    (hg : opens g = false) (hp : (p = .stream n) ↔ (told o g = true)) : Carries o (l ++ [(g, p)]) n (!ends g) := by
  obtain ⟨pre, x, mid, post, h1, h2, h3, h4, h5, h6, h7, h8⟩ := h
  obtain ⟨rfl, hm⟩ := h7 rfl
  refine ⟨pre, x, mid ++ [g], [], by simp [h1], h2, h3, ?_, ?_, ?_, ?_, ?_⟩
  · rw [streamOf_snoc, h4, List.filter_append]
    by_cases ht : told o g = true
    · simp [hp.mpr ht, ht]
    · have : ¬ p = .stream n := fun h' => ht (hp.mp h')
      simp [this, ht]
  · intro y hy
    rcases List.mem_append.mp hy with hy | hy
    · exact h5 y hy
    · rw [List.mem_singleton.mp hy]; exact hg
  · intro y hy; rw [List.dropLast_concat] at hy; exact hm y hy
  · intro he
    refine ⟨rfl, ?_⟩
    intro y hy
    rcases List.mem_append.mp hy with hy | hy
    · exact hm y hy
    · rw [List.mem_singleton.mp hy]; simpa using he
  · intro he; exact ⟨g, by simp, by simpa using he⟩

theorem forward_eq {s : State} {n m : Nat} (h : forward s = .stream m) (hr : s.reg = some n) : n = m := by
  simp only [forward, hr] at h
  split at h
  · split at h
    · injection h
    · cases h
  · cases h

theorem forward_reg {s : State} {m : Nat} (h : forward s = .stream m) : s.reg = some m := by
  simp only [forward] at h
  split at h
  · cases h
  · split at h
    · split at h
      · injection h with h; subst h; assumption
      · cases h
    · cases h

theorem forward_read {s : State} {n : Nat} (hr : s.reg = some n) (h : Read s n) : forward s = .stream n := by
  obtain ⟨x, hx, hv⟩ := h
  simp [forward, hr, hx, hv]

/-- What `handle` does to a state in which no channel is open if a signal would open one. -/
theorem handle_cases (s : State) (g : Sig) (hi : opens g = true → s.reg = none ∧ (g = .welcome → s.cgka = true)) :
    (opens g = true ∧ (handle s g).1.reg = some s.hs.length ∧ (handle s g).1.hs = s.hs ++ [({ } : Handle)] ∧ (handle s g).2 = .node) ∨
    (opens g = false ∧ (handle s g).1.hs = s.hs ∧ (handle s g).1.reg = (if ends g then none else s.reg) ∧
      (told s.owner g = true → (handle s g).2 = forward s) ∧ (told s.owner g = false → ∀ n, (handle s g).2 ≠ .stream n)) := by
  cases g with
  | createResp ok =>
    cases ok with
    | true => left; simp [handle, openChannel, opens, (hi rfl).1]
    | false => right; simp [handle, opens, ends, told]
  | acceptResp ok =>
    right
    cases ok <;> cases ho : s.owner <;> cases hc : s.cgka <;> simp [handle, opens, ends, told, ho, hc]
  | endResp ok => right; simp [handle, opens, ends, told]
  | leaveResp ok => right; simp [handle, opens, ends, told]
  | disconnected => right; simp [handle, opens, ends, told]
  | welcome =>
    left; simp [handle, openChannel, opens, (hi rfl).1, (hi rfl).2 rfl]
  | other x => right; simp [handle, opens, ends, told]

theorem kept_same {s s' : State} {l : List (Sig × Place)} (h : Kept s l) (ho : s'.owner = s.owner) (hr : s'.reg = s.reg)
    (hl : s'.hs.length = s.hs.length) (hn : ∀ n, Read s' n → Read s n) : Kept s' l :=
  ⟨by rw [hl]; exact h.number, by rw [hr, hl]; exact h.reg, by rw [hl]; exact h.future,
    fun n hn' => by rw [ho, hr]; exact h.carry n (hn n hn')⟩

theorem read_set {s : State} {n m : Nat} {x y : Handle} (hx : s.hs[n]? = some x) (hv : y.recv = true → x.recv = true)
    (h : ∃ z, (s.hs.set n y)[m]? = some z ∧ z.recv = true) : Read s m := by
  obtain ⟨z, hz, hr⟩ := h
  by_cases e : n = m
  · subst e
    rw [get_set_self hx] at hz
    injection hz with hz; subst hz
    exact ⟨x, hx, hv hr⟩
  · rw [List.getElem?_set_ne e] at hz
    exact ⟨z, hz, hr⟩

theorem kept_step {s : State} {l : List (Sig × Place)} (hi : Inv s) (h : Kept s l) (a : Act) :
    Kept (step s a).1 (l ++ (step s a).2.toList) := by
  have e := eff_step s a
  generalize (step s a).1 = s' at *
  generalize (step s a).2 = o at *
  cases e with
  | receive g rest hd hw =>
    have hopen := inv_open hi (g := g) hw
    have hc := handle_cases { s with down := rest } g hopen
    have ho := (handle_frame { s with down := rest } g).2.2.1
    have hf : forward { s with down := rest } = forward s := rfl
    simp only [hf] at hc ho
    generalize (handle { s with down := rest } g).1 = s' at *
    generalize (handle { s with down := rest } g).2 = p at *
    simp only [Option.toList_some]
    rcases hc with ⟨c1, c2, c3, rfl⟩ | ⟨c1, c2, c3, c4, c5⟩
    · have hr := (hopen c1).1
      refine ⟨?_, ?_, ?_, ?_⟩
      · simp [h.number, c1, c3]
      · intro n hn; rw [c2] at hn; injection hn with hn; simp [c3, ← hn]
      · intro n hn
        rw [streamOf_snoc, h.future n (by simp [c3] at hn; omega)]; simp
      · intro n hn
        obtain ⟨x, hx, hv⟩ := hn
        rw [c3] at hx
        have hlt := (List.getElem?_eq_some_iff.mp hx).1
        simp only [List.length_append, List.length_singleton] at hlt
        rw [ho, c2]
        by_cases e : s.hs.length = n
        · subst e
          simp only [beq_self_eq_true]
          refine ⟨l.map (·.1), g, [], [], by simp, c1, h.number, ?_, by simp, by simp, by simp, by simp⟩
          rw [streamOf_snoc, h.future _ (Nat.le_refl _)]; simp
        · have hn : Read s n := ⟨x, by rw [List.getElem?_append_left (by omega)] at hx; exact hx, hv⟩
          have := h.carry n hn
          rw [hr] at this
          have e' : (some s.hs.length == some n) = false := by simpa using e
          rw [e']
          exact carries_closed this g .node (by simp)
    · refine ⟨?_, ?_, ?_, ?_⟩
      · simp [h.number, c1, c2]
      · intro n hn
        rw [c3] at hn; rw [c2]
        split at hn
        · cases hn
        · exact h.reg n hn
      · intro n hn
        rw [c2] at hn
        rw [streamOf_snoc, h.future n hn]
        have : ¬ p = .stream n := by
          intro hp
          cases ht : told s.owner g with
          | true =>
            rw [c4 ht] at hp
            have := h.reg n (forward_reg hp); omega
          | false => exact c5 ht n hp
        simp [this]
      · intro n hn
        have hn' : Read s n := by simpa [Read, c2] using hn
        have hcar := h.carry n hn'
        rw [ho, c3]
        by_cases hr : s.reg = some n
        · rw [hr] at hcar ⊢
          simp only [beq_self_eq_true] at hcar
          have hgo := carries_open hcar g p c1 (by
            constructor
            · intro hp
              cases ht : told s.owner g with
              | true => rfl
              | false => exact absurd hp (c5 ht n)
            · intro ht; rw [c4 ht]; exact forward_read hr hn')
          cases he : ends g with
          | true => rw [he] at hgo; simpa using hgo
          | false => rw [he] at hgo; simpa using hgo
        · have e1 : (s.reg == some n) = false := by simpa using hr
          have e2 : ((if ends g = true then none else s.reg) == some n) = false := by
            split
            · rfl
            · exact e1
          rw [e2]; rw [e1] at hcar
          refine carries_closed hcar g p ?_
          intro hp
          cases ht : told s.owner g with
          | true => rw [c4 ht] at hp; exact hr (forward_reg hp)
          | false => exact c5 ht n hp
  | serve r rest hu =>
    obtain ⟨a, b, c, _⟩ := serve_frame { s with up := rest } r
    simp only [Option.toList_none, List.append_nil]
    exact kept_same h a b (by rw [c]) (fun n hn => by simpa [Read, c] using hn)
  | put n x r hh hg hc =>
    simp only [Option.toList_none, List.append_nil]
    exact kept_same h rfl rfl (by simp) (fun m hm => read_set (y := { x with q := x.q ++ [r] }) hh id hm)
  | drop n x hh hv hc =>
    simp only [Option.toList_none, List.append_nil]
    exact kept_same h rfl rfl (by simp) (fun m hm => read_set hh (by simp) hm)
  | lose n x hh hv hc =>
    simp only [Option.toList_none, List.append_nil]
    exact kept_same h rfl rfl (by simp) (fun m hm => read_set hh (by simp) hm)
  | pump n x r rest hh hq hd =>
    simp only [Option.toList_none, List.append_nil]
    exact kept_same h rfl rfl (by simp) (fun m hm => read_set (y := { x with q := rest }) hh id hm)
  | _ =>
    simp only [Option.toList_none, List.append_nil]
    exact kept_same h rfl rfl rfl (fun n hn => hn)

theorem kept_run (s : State) (l : List (Sig × Place)) (hi : Inv s) (h : Kept s l) (as : List Act) :
    Kept (run s as) (l ++ log s as) := by
  induction as generalizing s l with
  | nil => simpa [run, log] using h
  | cons a as ih =>
    have := ih _ _ (inv_step s a hi) (kept_step hi h a)
    simpa [run, log, List.append_assoc] using this

/-- **C204.** The stream of a channel that the user has not dropped carries, in their order, exactly those signals for the user
that arrived after the signal that opened the channel, up to the first signal that tells the end of the membership and with it.
Channel `n` is the one that the signal number `n` among the opening ones opened. -/
theorem C204_stream (o p : Bool) (c : Nat) (as : List Act) (n : Nat) (h : Handle)
    (hh : (run (start o p c) as).hs[n]? = some h) (hv : h.recv = true) :
    ∃ pre x mid post, (log (start o p c) as).map (·.1) = pre ++ x :: (mid ++ post) ∧ opens x = true ∧ pre.countP opens = n ∧
      streamOf n (log (start o p c) as) = mid.filter (told o) ∧ (∀ y ∈ mid, opens y = false) ∧
      (∀ y ∈ mid.dropLast, ends y = false) ∧ (post ≠ [] → ∃ y, mid.getLast? = some y ∧ ends y = true) := by
  have hk := kept_run (start o p c) [] (inv_start o p c)
    ⟨by simp [start], by simp [start], by simp [streamOf], by simp [Read, start]⟩ as
  simp only [List.nil_append] at hk
  have ho := (run_owner o p c as).1
  obtain ⟨pre, x, mid, post, h1, h2, h3, h4, h5, h6, h7, h8⟩ := hk.carry n ⟨h, hh, hv⟩
  rw [ho] at h4
  refine ⟨pre, x, mid, post, h1, h2, h3, h4, h5, h6, ?_⟩
  intro hp
  cases hb : ((run (start o p c) as).reg == some n) with
  | true => exact absurd (h7 hb).1 hp
  | false => exact h8 hb

/-- Invited, joined, two messages, kicked, and one more message that comes too late: it goes to nobody. -/
def exampleKick : List Act :=
  [.ownerCreate, .invite, .receive, .accept, .serve, .receive, .serve, .welcome, .receive, .post 5, .post 6, .receive, .receive,
   .kick, .receive, .invite, .receive]

example : streamOf 0 (log (start false false 512) exampleKick) = [.other 5, .other 6, .disconnected] := by decide +kernel

/-- While a channel is registered, as told by what arrived; and where the rest went. -/
def Apart (s : State) (l : List (Sig × Place)) : Prop :=
  s.reg.isSome = settled false (l.map (·.1)) ∧
  ∀ pre g p post, l = pre ++ (g, p) :: post → told s.owner g = true → settled false (pre.map (·.1)) = false → p = .kernel

theorem handle_reg (s : State) (g : Sig) (hg : opens g = true → s.reg = none ∧ (g = .welcome → s.cgka = true)) :
    (handle s g).1.reg.isSome = (if opens g then true else if ends g then false else s.reg.isSome) := by
  cases g with
  | createResp ok => cases ok <;> simp_all [handle, opens, ends, openChannel]
  | acceptResp ok =>
    simp only [handle, opens, ends]
    split
    · split <;> rfl
    · rfl
  | welcome => simp_all [handle, opens, openChannel]
  | _ => simp [handle, opens, ends]

theorem handle_told (s : State) (g : Sig) (ht : told s.owner g = true) (hn : s.reg = none) : (handle s g).2 = .kernel := by
  cases g with
  | createResp ok => simp [told] at ht
  | acceptResp ok => cases ok <;> cases ho : s.owner <;> simp_all [told, handle, forward]
  | welcome => simp [told] at ht
  | _ => simp [handle, forward, hn]

theorem snoc_split {α : Type} {l pre post : List α} {x y : α} (h : l ++ [x] = pre ++ y :: post) :
    (post = [] ∧ l = pre ∧ x = y) ∨ ∃ post', l = pre ++ y :: post' := by
  rcases List.eq_nil_or_concat post with rfl | ⟨q, z, rfl⟩
  · have := List.append_inj' h rfl
    simp only [List.cons.injEq, and_true] at this
    exact .inl ⟨rfl, this.1, this.2⟩
  · have h' : l ++ [x] = (pre ++ y :: q) ++ [z] := by simpa using h
    exact .inr ⟨q, (List.append_inj' h' rfl).1⟩

theorem apart_step {s : State} {l : List (Sig × Place)} (hi : Inv s) (h : Apart s l) (a : Act) :
    Apart (step s a).1 (l ++ (step s a).2.toList) := by
  have ho : (step s a).1.owner = s.owner := (step_owner s a).1
  by_cases ha : a = .receive
  · subst ha
    have hs : (step s .receive).1 = (receive s).1 := rfl
    have hr : (step s .receive).2 = (receive s).2 := rfl
    rw [hs] at ho
    rw [hs, hr]
    revert ho
    unfold receive
    split
    · intro _; simpa using h
    · split
      · intro _; simpa using h
      · rename_i g rest hw
        intro ho
        have hreg := handle_reg { s with down := rest } g (fun hg => by
          obtain ⟨a, b⟩ := inv_open hi hw hg
          exact ⟨a, b⟩)
        refine ⟨?_, ?_⟩
        · simp only [Option.toList_some, List.map_append, List.map_cons, List.map_nil, settled_snoc]
          rw [← h.1]; exact hreg
        · intro pre x p post he ht hset
          rw [ho] at ht
          rcases snoc_split he with ⟨_, rfl, hx⟩ | ⟨post', he'⟩
          · cases hx
            refine handle_told { s with down := rest } g ht ?_
            have := h.1
            rw [hset] at this
            simpa using this
          · exact h.2 pre x p post' he' ht hset
  · have hn : (step s a).2 = none := by simp [step, ha]
    have hreg : (step s a).1.reg = s.reg := by
      have e := eff_step s a
      rw [hn] at e
      generalize (step s a).1 = s' at *
      cases e with
      | serve r rest hu => exact (serve_frame _ r).2.1
      | _ => rfl
    rw [hn]
    refine ⟨by rw [hreg]; simpa using h.1, ?_⟩
    intro pre x p post he ht hset
    rw [ho] at ht
    exact h.2 pre x p post (by simpa using he) ht hset

/-- **C204.** What arrives for the user about a group while no channel of it is open goes to the kernel. -/
theorem C204_kernel (o p : Bool) (c : Nat) (as : List Act) (pre post : List (Sig × Place)) (g : Sig) (pl : Place)
    (h : log (start o p c) as = pre ++ (g, pl) :: post) (ht : told o g = true)
    (hopen : settled false (pre.map (·.1)) = false) : pl = .kernel := by
  have key : ∀ s l, Inv s → Apart s l → Apart (run s as) (l ++ log s as) := by
    clear h
    induction as with
    | nil => intro s l _ h; simpa [run, log] using h
    | cons a as ih =>
      intro s l hi h
      have := ih _ _ (inv_step s a hi) (apart_step hi h a)
      simpa [run, log, List.append_assoc] using this
  have := (key (start o p c) [] (inv_start o p c) ⟨by simp [start, settled], by intro pre g p post h; simp at h⟩).2 pre g pl post
    (by simpa using h)
  rw [(run_owner o p c as).1] at this
  exact this ht hopen

example : log (start false false 512) exampleKick = [(.other 0, .kernel), (.acceptResp true, .node), (.welcome, .node),
    (.other 5, .stream 0), (.other 6, .stream 0), (.disconnected, .stream 0), (.other 0, .kernel)] := by decide +kernel

/-! ### C205: one channel at a time -/

/-- **C205.** A second channel of a group is never opened while the first is registered, so that the session does not end for it
(nor for a Welcome without a key package); the registered channel is the newest one. -/
theorem C205_single (o p : Bool) (c : Nat) (as : List Act) :
    (run (start o p c) as).dead = false ∧
    ∀ n, (run (start o p c) as).reg = some n → n + 1 = (run (start o p c) as).hs.length :=
  ⟨(inv_run o p c as).alive, (inv_run o p c as).newest⟩

example : (run (start false false 512) (exampleKick.take 9)).reg = some 0 := by decide +kernel

/-! ### C206: an old channel does not touch the group -/

/-- **C206, partial.** One who does not own the group has at most one channel of it per session, so that whatever is asked of a
channel is asked of the newest one. Missing: the owner, see the counterexample. -/
theorem C206_one_partial (p : Bool) (c : Nat) (as : List Act) (n : Nat) (h : Handle)
    (hh : (run (start false p c) as).hs[n]? = some h) : n + 1 = (run (start false p c) as).hs.length := by
  have ho := (run_owner false p c as).1
  have hc := (inv_run false p c as).count ho
  have := (List.getElem?_eq_some_iff.mp hh).1
  split at hc <;> omega

/-- An owner creates the group, ends it through the channel, creates it again, and then the old channel is dropped. -/
def oldHandle : List Act :=
  [.create, .serve, .receive, .ask 0 .endIt, .pump 0, .serve, .receive, .create, .serve, .receive, .dropRecv 0, .pump 0, .serve,
   .receive]

/-- **C206, counterexample.** Dropping the channel of a group that was ended takes the owner out of the group created anew under
the same key and closes its new channel, which was neither dropped nor asked to leave. -/
theorem C206_counterexample :
    (run (start true false 512) (oldHandle.take 10)).reg = some 1 ∧ (run (start true false 512) (oldHandle.take 10)).mem = true ∧
    (run (start true false 512) oldHandle).mem = false ∧ (run (start true false 512) oldHandle).ex = true ∧
    (run (start true false 512) oldHandle).reg = none ∧
    (run (start true false 512) oldHandle).hs[1]? = some { recv := true, q := [] } ∧
    streamOf 1 (log (start true false 512) oldHandle) = [.leaveResp true] := by decide +kernel

/-! ### C207: who drops the channel leaves the group -/

/-- The leave request is on its way, behind anything else. -/
def leaving (s : State) (n : Nat) : Prop := .leave ∈ s.up ∨ ∃ h, s.hs[n]? = some h ∧ .leave ∈ h.q

theorem leaving_step {s : State} {n : Nat} (hi : Inv s) (h : leaving s n) (a : Act) :
    leaving (step s a).1 n ∨ (step s a).1.mem = false := by
  have e := eff_step s a
  generalize (step s a).1 = s' at *
  generalize (step s a).2 = o at *
  have hset : ∀ (m : Nat) (x y : Handle), s.hs[m]? = some x → (.leave ∈ x.q → .leave ∈ y.q) →
      (∃ h, s.hs[n]? = some h ∧ .leave ∈ h.q) → ∃ h, (s.hs.set m y)[n]? = some h ∧ .leave ∈ h.q := by
    rintro m x y hx hy ⟨z, hz, hl⟩
    by_cases e : m = n
    · subst e
      rw [hx] at hz; injection hz with hz; subst hz
      exact ⟨y, get_set_self hx, hy hl⟩
    · exact ⟨z, by rw [List.getElem?_set_ne e]; exact hz, hl⟩
  cases e with
  | put m x r hh hg hc =>
    exact .inl (h.imp id (hset m x _ hh (fun hl => List.mem_append_left _ hl)))
  | drop m x hh hv hc =>
    exact .inl (h.imp id (hset m x _ hh (fun hl => List.mem_append_left _ hl)))
  | lose m x hh hv hc => exact .inl (h.imp id (hset m x _ hh id))
  | pump m x r rest hh hq hd =>
    left
    rcases h with h | ⟨z, hz, hl⟩
    · exact .inl (List.mem_append_left _ h)
    · by_cases e : m = n
      · subst e
        rw [hh] at hz; injection hz with hz; subst hz
        rw [hq] at hl
        rcases List.mem_cons.mp hl with rfl | hl
        · exact .inl (by simp)
        · exact .inr ⟨_, get_set_self hh, hl⟩
      · exact .inr ⟨z, by simp only [List.getElem?_set_ne e]; exact hz, hl⟩
  | serve r rest hu =>
    have hs := serve_frame { s with up := rest } r
    rcases h with h | ⟨z, hz, hl⟩
    · rw [hu] at h
      rcases List.mem_cons.mp h with rfl | h
      · right
        simp only [serveReq]
        split
        · rfl
        · rename_i hx; exact hi.gone (by simpa using hx)
      · left; left
        rw [hs.2.2.2.2.1]; exact h
    · left; right; rw [hs.2.2.1]; exact ⟨z, hz, hl⟩
  | receive g rest hd hw =>
    left
    rcases h with h | ⟨z, hz, hl⟩
    · left
      obtain ⟨l, hl, _⟩ := (handle_frame { s with down := rest } g).1
      rw [hl]; exact List.mem_append_left _ h
    · right
      obtain ⟨l, hl', _⟩ := (handle_frame { s with down := rest } g).2.1
      rw [hl']
      exact ⟨z, by rw [List.getElem?_append_left (List.getElem?_eq_some_iff.mp hz).1]; exact hz, hl⟩
  | create ho => exact .inl (h.imp (List.mem_append_left _) id)
  | send r ho hr => exact .inl (h.imp (List.mem_append_left _) id)
  | _ => exact .inl h

theorem leaving_run {s : State} {n : Nat} (hi : Inv s) (h : leaving s n) (as : List Act) :
    leaving (run s as) n ∨ ∃ k ≤ as.length, (run s (as.take k)).mem = false := by
  induction as generalizing s with
  | nil => exact .inl h
  | cons a as ih =>
    rcases leaving_step hi h a with h' | h'
    · rcases ih (inv_step s a hi) h' with h'' | ⟨k, hk, hm⟩
      · exact .inl h''
      · exact .inr ⟨k + 1, by simpa using hk, by simpa [run] using hm⟩
    · exact .inr ⟨1, by simp, by simpa [run] using h'⟩

/-- **C207, partial.** If there is room in the queue when the user drops the receiving half, then by the time that the queue and
the stream to the server are empty the server has taken the client out of the group at some moment. Missing: room in the queue,
see the counterexample. -/
theorem C207_leaves_partial (o p : Bool) (c : Nat) (before after : List Act) (n : Nat) (h : Handle)
    (hh : (run (start o p c) before).hs[n]? = some h) (hv : h.recv = true) (hroom : h.q.length < c)
    (hup : (run (start o p c) (before ++ .dropRecv n :: after)).up = [])
    (hq : ∀ h', (run (start o p c) (before ++ .dropRecv n :: after)).hs[n]? = some h' → h'.q = []) :
    ∃ k ≤ after.length, (run (start o p c) (before ++ .dropRecv n :: after.take k)).mem = false := by
  have hcap := (run_owner o p c before).2
  have hi := inv_run o p c before
  rw [run_append] at hup hq
  simp only [run_append]
  generalize run (start o p c) before = s at *
  have hl : leaving (step s (.dropRecv n)).1 n := by
    right
    refine ⟨{ recv := false, q := h.q ++ [.leave] }, ?_, by simp⟩
    simp only [step, stepState, dropRecv, hh, hv, if_true, put, get_set_self hh, hcap, hroom, List.set_set]
  rcases leaving_run (inv_step s _ hi) hl after with h' | h'
  · simp only [run] at hup hq
    rcases h' with h' | ⟨z, hz, hl⟩
    · rw [hup] at h'; simp at h'
    · rw [hq z hz] at hl; simp at hl
  · simpa [run] using h'

/-- The member has dropped the channel, everything in flight has arrived, and it is out of the group. -/
example : (run (start false false 512) (exampleKick.take 13 ++ [.dropRecv 0, .pump 0, .serve, .receive])).mem = false := by
  decide +kernel

/-- A member asks `cap` times before the task of the channel runs, and then drops the channel. -/
def fullQueue (cap : Nat) : List Act :=
  exampleKick.take 9 ++ (List.replicate cap (.ask 0 (.other 1)) ++ (.dropRecv 0 :: (List.replicate cap (.pump 0) ++
    (List.replicate cap .serve ++ List.replicate cap .receive))))

theorem asks (k : Nat) (s : State) (q : List Req) (hs : s.hs = [⟨true, q⟩]) (hk : q.length + k ≤ s.cap) :
    run s (List.replicate k (.ask 0 (.other 1))) = { s with hs := [⟨true, q ++ List.replicate k (.other 1)⟩] } := by
  induction k generalizing s q with
  | zero => simp [run, ← hs]
  | succ k ih =>
    have h1 : (step s (.ask 0 (.other 1))).1 = { s with hs := [⟨true, q ++ [.other 1]⟩] } := by
      have : q.length < s.cap := by omega
      simp [step, stepState, ask, gate, put, hs, this]
    rw [List.replicate_succ]
    simp only [run]
    rw [h1, ih { s with hs := [⟨true, q ++ [.other 1]⟩] } (q ++ [.other 1]) rfl
      (by simp only [List.length_append, List.length_singleton]; omega)]
    simp [List.replicate_succ]

theorem pumps (k : Nat) (s : State) (b : Bool) (hs : s.hs = [⟨b, List.replicate k (.other 1)⟩]) (hd : s.dead = false) :
    run s (List.replicate k (.pump 0)) = { s with hs := [⟨b, []⟩], up := s.up ++ List.replicate k (.other 1) } := by
  induction k generalizing s with
  | zero => simp [run]; cases s; simp_all
  | succ k ih =>
    have h1 : (step s (.pump 0)).1 = { s with hs := [⟨b, List.replicate k (.other 1)⟩], up := s.up ++ [.other 1] } := by
      simp [step, stepState, pump, hs, hd, List.replicate_succ]
    rw [List.replicate_succ]
    simp only [run]
    rw [h1, ih { s with hs := [⟨b, List.replicate k (.other 1)⟩], up := s.up ++ [.other 1] } rfl hd]
    simp [List.replicate_succ]

theorem serves (k : Nat) (s : State) (hs : s.up = List.replicate k (.other 1)) :
    run s (List.replicate k .serve) = { s with up := [], down := s.down ++ List.replicate k (.other 1) } := by
  induction k generalizing s with
  | zero => simp [run]; cases s; simp_all
  | succ k ih =>
    have h1 : (step s .serve).1 = { s with up := List.replicate k (.other 1), down := s.down ++ [.other 1] } := by
      simp [step, stepState, serve, hs, serveReq, List.replicate_succ]
    rw [List.replicate_succ]
    simp only [run]
    rw [h1, ih { s with up := List.replicate k (.other 1), down := s.down ++ [.other 1] } rfl]
    simp [List.replicate_succ]

theorem receives (k : Nat) (s : State) (hs : s.down = List.replicate k (.other 1)) (hd : s.dead = false) :
    run s (List.replicate k .receive) = { s with down := [] } := by
  induction k generalizing s with
  | zero => simp [run]; cases s; simp_all
  | succ k ih =>
    have h1 : (step s .receive).1 = { s with down := List.replicate k (.other 1) } := by
      simp [step, stepState, receive, hs, hd, handle, List.replicate_succ]
    rw [List.replicate_succ]
    simp only [run]
    rw [h1, ih { s with down := List.replicate k (.other 1) } rfl hd]

/-- **C207, counterexample.** With the queue full (512 requests) the `LeaveRoom` of the drop is lost. When all else is done the
client is still a member, its channel is registered, and what is sent to the group goes nowhere. -/
theorem C207_counterexample (cap : Nat) :
    AtRest (run (start false false cap) (fullQueue cap)) ∧ (run (start false false cap) (fullQueue cap)).mem = true ∧
    (run (start false false cap) (fullQueue cap)).reg = some 0 ∧
    log (run (start false false cap) (fullQueue cap)) [.post 9, .receive] = [(.other 9, .nowhere)] := by
  have h1 : run (start false false cap) (exampleKick.take 9) =
      { start false false cap with reg := some 0, cgka := true, hs := [⟨true, []⟩], ex := true, mem := true } := by
    simp [exampleKick, run, step, stepState, start, receive, serve, serveReq, handle, openChannel]
  have h2 : run (start false false cap) (fullQueue cap) =
      { start false false cap with reg := some 0, cgka := true, hs := [⟨false, []⟩], ex := true, mem := true } := by
    rw [fullQueue, run_append, h1, run_append, asks cap _ [] rfl (by simp [start])]
    simp only [run, List.nil_append]
    rw [run_append, run_append]
    have h3 : ∀ l : List Req, l.length = cap → (step ⟨false, false, cap, some 0, true, [⟨true, l⟩], false, [], [], true, true,
        false, 0⟩ (.dropRecv 0)).1 = ⟨false, false, cap, some 0, true, [⟨false, l⟩], false, [], [], true, true, false, 0⟩ := by
      intro l hl
      simp [step, stepState, dropRecv, put, hl]
    simp only [start]
    rw [h3 _ (by simp), pumps cap _ false rfl rfl, serves cap _ rfl, receives cap _ rfl rfl]
  rw [h2]
  refine ⟨by simp [AtRest, start], rfl, rfl, rfl⟩

/-! ### C208: an open channel means membership -/

theorem settled_step (s : State) (hi : Inv s) (g : Sig) (rest : List Sig) (hw : s.down = g :: rest) :
    settled (handle { s with down := rest } g).1.reg.isSome rest = settled s.reg.isSome s.down ∧
      (handle { s with down := rest } g).1.down = rest ∧ (handle { s with down := rest } g).1.mem = s.mem := by
  refine ⟨?_, ?_, ?_⟩
  · rcases handle_cases { s with down := rest } g (inv_open hi hw) with ⟨a, b, _, _⟩ | ⟨a, _, b, _⟩
    · rw [hw, b]; simp [settled, a]
    · rw [hw, b]
      cases he : ends g <;> simp [settled, a, he]
  · exact (handle_frame { s with down := rest } g).2.2.2.2.1
  · exact (handle_frame { s with down := rest } g).2.2.2.2.2.2.1

/-- No request that kicks the client itself. -/
def noSelf (s : State) : Prop := .kick true ∉ s.up ∧ ∀ h ∈ s.hs, .kick true ∉ h.q

theorem noSelf_step {s : State} (h : noSelf s) (a : Act) (ha : ∀ n, a ≠ .ask n (.kick true)) : noSelf (step s a).1 := by
  have hset : ∀ (n : Nat) (y : Handle), Req.kick true ∉ y.q → ∀ z ∈ s.hs.set n y, Req.kick true ∉ z.q := by
    intro n y hy z hz
    rcases mem_set hz with hz | rfl
    · exact h.2 z hz
    · exact hy
  cases a with
  | ask n r =>
    simp only [step, stepState, ask, put]
    split
    · split
      · exact h
      · rename_i x hx
        split
        · refine ⟨h.1, hset n _ ?_⟩
          have := h.2 x (List.mem_of_getElem? hx)
          have hr : r ≠ .kick true := by rintro rfl; exact ha n rfl
          simp [this, Ne.symm hr]
        · exact h
    · exact h
  | dropRecv n =>
    simp only [step, stepState, dropRecv]
    split
    · exact h
    · rename_i x hx
      have := h.2 x (List.mem_of_getElem? hx)
      split
      · simp only [put, get_set_self hx, List.set_set]
        split
        · exact ⟨h.1, hset n _ (by simp [this])⟩
        · exact ⟨h.1, hset n _ this⟩
      · exact h
  | pump n =>
    simp only [step, stepState, pump]
    split
    · exact h
    · split
      · exact h
      · rename_i x hx
        split
        · exact h
        · rename_i r rest hq
          have := h.2 x (List.mem_of_getElem? hx)
          rw [hq, List.mem_cons, not_or] at this
          exact ⟨by simp [h.1, this.1], hset n _ this.2⟩
  | serve =>
    simp only [step, stepState, serve]
    split
    · exact h
    · rename_i r rest hu
      have hf := serve_frame { s with up := rest } r
      have := h.1
      rw [hu, List.mem_cons, not_or] at this
      exact ⟨by rw [hf.2.2.2.2.1]; exact this.2, by rw [hf.2.2.1]; exact h.2⟩
  | receive =>
    simp only [step, stepState, receive]
    split
    · exact h
    · split
      · exact h
      · rename_i g rest hw
        obtain ⟨⟨l, hl, hl'⟩, ⟨m, hm, hm'⟩, _⟩ := handle_frame { s with down := rest } g
        refine ⟨?_, ?_⟩
        · rw [hl]
          intro hk
          rcases List.mem_append.mp hk with hk | hk
          · exact h.1 hk
          · cases hl' _ hk
        · rw [hm]
          intro z hz
          rcases List.mem_append.mp hz with hz | hz
          · exact h.2 z hz
          · rw [hm' z hz]; simp
  | create | requestJoin | accept =>
    simp only [step, stepState]
    split
    · first | exact h | exact ⟨by simp [h.1], h.2⟩
    · first | exact h | exact ⟨by simp [h.1], h.2⟩
  | _ =>
    simp only [step, stepState]
    split
    · exact h
    · exact h

/-- Once all that is on the way to the client has arrived, a channel is open only if the client is a member. -/
def trueOpen (s : State) : Prop := settled s.reg.isSome s.down = true → s.mem = true

theorem open_answer {s : State} (h : trueOpen s) (g : Sig) (ho : opens g = false) {mem : Bool}
    (hm : ends g = true ∨ (s.mem = true → mem = true)) : settled s.reg.isSome (s.down ++ [g]) = true → mem = true := by
  rw [settled_snoc]
  simp only [ho, Bool.false_eq_true, if_false]
  rcases hm with hm | hm
  · simp [hm]
  · split
    · simp
    · exact fun h' => hm (h h')

theorem open_step {s : State} (hi : Inv s) (hn : noSelf s) (h : trueOpen s) (a : Act) (hg : a ≠ .ownerGone)
    (hw : a = .welcome → s.mem = true) : trueOpen (step s a).1 := by
  unfold trueOpen
  cases a with
  | ownerGone => exact absurd rfl hg
  | welcome =>
    simp only [step, stepState]
    split
    · exact h
    · exact fun _ => hw rfl
  | ask n r =>
    simp only [step, stepState, ask, put]
    (repeat' split) <;> exact h
  | dropRecv n =>
    simp only [step, stepState, dropRecv]
    split
    · exact h
    · rename_i x hx
      split
      · simp only [put, get_set_self hx]
        split <;> exact h
      · exact h
  | pump n =>
    simp only [step, stepState, pump]
    (repeat' split) <;> exact h
  | serve =>
    simp only [step, stepState, serve]
    split
    · exact h
    · rename_i r rest hu
      have hgone : s.ex = false → settled s.reg.isSome s.down = false := by
        intro hx
        cases hh : settled s.reg.isSome s.down with
        | false => rfl
        | true => have := h hh; rw [hi.gone hx] at this; cases this
      cases r with
      | create =>
        simp only [serveReq]
        split
        · split
          · exact open_answer h (.createResp false) rfl (.inr id)
          · exact fun _ => rfl
        · exact h
      | requestJoin =>
        simp only [serveReq]
        split
        · split
          · exact fun _ => rfl
          · exact h
        · exact open_answer h (.other 0) rfl (.inr id)
      | accept =>
        simp only [serveReq]
        split
        · exact fun _ => rfl
        · exact open_answer h (.acceptResp false) rfl (.inr id)
      | leave =>
        simp only [serveReq]
        split
        · exact open_answer h (.leaveResp true) rfl (.inl rfl)
        · exact open_answer h (.leaveResp false) rfl (.inl rfl)
      | endIt =>
        simp only [serveReq]
        split
        · exact open_answer h (.endResp s.ex) rfl (.inl rfl)
        · exact h
      | kick self =>
        have : self = false := by
          cases self with
          | false => rfl
          | true => exact absurd (by rw [hu]; simp) hn.1
        subst this
        simp only [serveReq]
        split
        · exact open_answer h (.other 0) rfl (.inr (by simp))
        · exact h
      | other x => exact open_answer h (.other x) rfl (.inr id)
      | keyPackage => exact h
  | receive =>
    simp only [step, stepState, receive]
    split
    · exact h
    · split
      · exact h
      · rename_i g rest hw
        obtain ⟨a, b, c⟩ := settled_step s hi g rest hw
        simp only [b, a, c]
        exact h
  | create | requestJoin | accept =>
    simp only [step, stepState]
    split <;> exact h
  | ownerCreate =>
    simp only [step, stepState]
    split
    · exact h
    · rename_i hx
      simp only [Bool.or_eq_true, not_or, Bool.not_eq_true] at hx
      intro hh
      have := h hh; rw [hi.gone hx.2] at this; cases this
  | ownerEnd =>
    simp only [step, stepState]
    split
    · exact h
    · cases hm : s.mem with
      | true => simp only [if_true]; exact open_answer h .disconnected rfl (.inl rfl)
      | false =>
        simp only [Bool.false_eq_true, if_false]
        intro hh
        have := h hh; rw [hm] at this; cases this
  | invite =>
    simp only [step, stepState]
    split
    · exact h
    · exact open_answer h (.other 0) rfl (.inr id)
  | letIn =>
    simp only [step, stepState]
    split
    · exact h
    · exact fun _ => rfl
  | kick =>
    simp only [step, stepState]
    split
    · exact h
    · exact open_answer h .disconnected rfl (.inl rfl)
  | post x =>
    simp only [step, stepState]
    split
    · exact open_answer h (.other x) rfl (.inr id)
    · exact h

theorem open_run {s : State} (hi : Inv s) (hn : noSelf s) (h : trueOpen s) (as : List Act) (hg : .ownerGone ∉ as)
    (hk : ∀ n, .ask n (.kick true) ∉ as) (hw : promptly s as) : trueOpen (run s as) := by
  induction as generalizing s with
  | nil => exact h
  | cons a as ih =>
    refine ih (inv_step s a hi) (noSelf_step hn a ?_) (open_step hi hn h a ?_ hw.1) (fun hm => hg (List.mem_cons_of_mem _ hm))
      (fun n hm => hk n (List.mem_cons_of_mem _ hm)) hw.2
    · rintro n rfl; exact hk n (by simp)
    · rintro rfl; exact hg (by simp)

/-- **C208, partial.** Once all signals on the way to the client have arrived, its channel is open only if it is a member of the
group. Missing, see the counterexamples: the owner loses its session; an owner kicks itself; the owner answers a key package of a
client that is no member any more. -/
theorem C208_member_partial (o p : Bool) (c : Nat) (as : List Act) (hg : .ownerGone ∉ as) (hk : ∀ n, .ask n (.kick true) ∉ as)
    (hw : promptly (start o p c) as)
    (hs : settled (run (start o p c) as).reg.isSome (run (start o p c) as).down = true) : (run (start o p c) as).mem = true :=
  open_run (inv_start o p c) (by simp [noSelf, start]) (by simp [trueOpen, start, settled]) as hg hk hw hs

example : promptly (start false false 512) (exampleKick.take 9) ∧
    settled (run (start false false 512) (exampleKick.take 9)).reg.isSome
      (run (start false false 512) (exampleKick.take 9)).down = true := by
  refine ⟨?_, by decide +kernel⟩
  simp [promptly, exampleKick]
  decide +kernel

/-- **C208, counterexample.** The owner loses its session: the group is gone, and the member is not told; its channel stays open
for good. -/
theorem C208_counterexample_gone :
    AtRest (run (start false false 512) (exampleKick.take 9 ++ [.ownerGone])) ∧
    (run (start false false 512) (exampleKick.take 9 ++ [.ownerGone])).ex = false ∧
    (run (start false false 512) (exampleKick.take 9 ++ [.ownerGone])).reg = some 0 := by decide +kernel

/-- **C208, counterexample.** An owner kicks itself: it is no member any more, is not told, and keeps its channel. -/
theorem C208_counterexample_self :
    AtRest (run (start true false 512) [.create, .serve, .receive, .ask 0 (.kick true), .pump 0, .serve, .receive]) ∧
    (run (start true false 512) [.create, .serve, .receive, .ask 0 (.kick true), .pump 0, .serve, .receive]).mem = false ∧
    (run (start true false 512) [.create, .serve, .receive, .ask 0 (.kick true), .pump 0, .serve, .receive]).ex = true ∧
    (run (start true false 512) [.create, .serve, .receive, .ask 0 (.kick true), .pump 0, .serve, .receive]).reg = some 0 := by
  decide +kernel

/-- **C208, counterexample.** The owner kicks the client before it handles its key package. The client is told that it is out,
then it gets a Welcome and opens a channel of a group that it is no member of. -/
theorem C208_counterexample_late :
    let acts := [.ownerCreate, .invite, .receive, .accept, .serve, .receive, .serve, .kick, .welcome, .receive, .receive]
    AtRest (run (start false false 512) acts) ∧ (run (start false false 512) acts).mem = false ∧
    (run (start false false 512) acts).reg = some 0 ∧
    (log (start false false 512) acts).map (·.1) = [.other 0, .acceptResp true, .disconnected, .welcome] := by decide +kernel

/-! ### C209: a member gets a channel -/

/-- A client that has published its key package has a channel, or what leads to it is on the way. -/
def joining (s : State) : Prop :=
  s.cgka = true → s.hs ≠ [] ∨ .welcome ∈ s.down ∨ s.kps ≠ 0 ∨ .keyPackage ∈ s.up

theorem joining_step {s : State} (hi : Inv s) (ho : s.owner = false) (h : joining s) (a : Act) (hg : a ≠ .ownerGone) :
    joining (step s a).1 := by
  have hset : ∀ (n : Nat) (y : Handle), s.hs ≠ [] → s.hs.set n y ≠ [] := by
    intro n y hn; simpa using hn
  cases a with
  | ownerGone => exact absurd rfl hg
  | ask n r =>
    simp only [step, stepState, ask, put]
    split
    · split
      · exact h
      · split
        · exact fun hc => (h hc).imp (hset n _) id
        · exact h
    · exact h
  | dropRecv n =>
    simp only [step, stepState, dropRecv]
    split
    · exact h
    · rename_i x hx
      split
      · simp only [put, get_set_self hx, List.set_set]
        split
        · exact fun hc => (h hc).imp (hset n _) id
        · exact fun hc => (h hc).imp (hset n _) id
      · exact h
  | pump n =>
    simp only [step, stepState, pump]
    split
    · exact h
    · split
      · exact h
      · split
        · exact h
        · exact fun hc => (h hc).imp (hset n _) (Or.imp id (Or.imp id (List.mem_append_left _)))
  | serve =>
    simp only [step, stepState, serve]
    split
    · exact h
    · rename_i r rest hu
      by_cases hr : r = .keyPackage
      · subst hr
        simp only [serveReq]
        exact fun _ => .inr (.inr (.inl (by simp)))
      · have hf := serve_frame { s with up := rest } r
        have hd : (∃ l, (serveReq { s with up := rest } r).down = s.down ++ l) ∧ (serveReq { s with up := rest } r).kps = s.kps := by
          cases r with
          | keyPackage => exact absurd rfl hr
          | _ =>
            simp only [serveReq]
            (repeat' split) <;> refine ⟨?_, ?_⟩ <;>
              first | exact ⟨[], (List.append_nil _).symm⟩ | exact ⟨_, rfl⟩ | trivial
        obtain ⟨⟨l, hl⟩, hk⟩ := hd
        intro hc
        rw [hf.2.2.2.2.2] at hc
        have := h hc
        rw [hf.2.2.1, hl, hk, hf.2.2.2.2.1]
        refine this.imp id (Or.imp (List.mem_append_left _) (Or.imp id ?_))
        rw [hu]
        intro hm
        rcases List.mem_cons.mp hm with hm | hm
        · exact absurd hm.symm hr
        · exact hm
  | receive =>
    simp only [step, stepState, receive]
    split
    · exact h
    · split
      · exact h
      · rename_i g rest hw
        by_cases hop : opens g = true
        · rcases handle_cases { s with down := rest } g (inv_open hi hw) with ⟨_, _, c, _⟩ | ⟨a, _⟩
          · intro _; left; rw [c]; simp
          · rw [hop] at a; cases a
        · have hne : g ≠ .welcome := by rintro rfl; simp [opens] at hop
          have hkeep : ∀ u, s.cgka = true → s.hs ≠ [] ∨ .welcome ∈ rest ∨ s.kps ≠ 0 ∨ .keyPackage ∈ s.up ++ u := by
            intro u hc
            have := h hc
            rw [hw] at this
            refine this.imp id (Or.imp ?_ (Or.imp id (List.mem_append_left _)))
            intro hm
            rcases List.mem_cons.mp hm with hm | hm
            · exact absurd hm.symm hne
            · exact hm
          have hkeep' : s.cgka = true → s.hs ≠ [] ∨ .welcome ∈ rest ∨ s.kps ≠ 0 ∨ .keyPackage ∈ s.up := by
            simpa using hkeep []
          cases g with
          | createResp ok =>
            cases ok with
            | true => simp [opens] at hop
            | false => exact hkeep'
          | acceptResp ok =>
            simp only [handle]
            split
            · split
              · exact hkeep'
              · exact fun _ => .inr (.inr (.inr (by simp)))
            · exact hkeep'
          | welcome => exact absurd rfl hne
          | _ => exact hkeep'
  | create =>
    simp only [step, stepState, ho, Bool.false_and, Bool.false_eq_true, if_false]
    exact h
  | requestJoin | accept =>
    simp only [step, stepState]
    split
    · exact h
    · exact fun hc => (h hc).imp id (Or.imp id (Or.imp id (List.mem_append_left _)))
  | ownerCreate =>
    simp only [step, stepState]
    split <;> exact h
  | ownerEnd =>
    simp only [step, stepState]
    split
    · exact h
    · intro hc
      refine (h hc).imp id (Or.imp ?_ id)
      intro hm
      split
      · exact List.mem_append_left _ hm
      · exact hm
  | welcome =>
    simp only [step, stepState]
    split
    · exact h
    · exact fun _ => .inr (.inl (by simp))
  | invite | letIn | kick =>
    simp only [step, stepState]
    split
    · exact h
    · exact fun hc => (h hc).imp id (Or.imp (List.mem_append_left _) id)
  | post x =>
    simp only [step, stepState]
    split
    · exact fun hc => (h hc).imp id (Or.imp (List.mem_append_left _) id)
    · exact h

/-- After the client has learnt that it was let in, it has an entry in `group_cgka`. -/
theorem accepted_step {s : State} (ho : s.owner = false) (a : Act) :
    (s.cgka = true → (step s a).1.cgka = true) ∧
    (∀ pl, (step s a).2 = some (.acceptResp true, pl) → (step s a).1.cgka = true) := by
  have e := eff_step s a
  generalize (step s a).1 = s' at *
  generalize (step s a).2 = o at *
  cases e with
  | serve r rest hu => exact ⟨fun h => by rw [(serve_frame { s with up := rest } r).2.2.2.2.2]; exact h, by simp⟩
  | receive g rest hd hw =>
    constructor
    · intro h
      cases g <;> simp only [handle, openChannel] <;> (repeat' split) <;> first | exact h | rfl
    · intro pl hp
      injection hp with hp
      have : g = .acceptResp true := congrArg Prod.fst hp
      subst this
      simp only [handle, ho]
      split
      · split
        · assumption
        · rfl
      · rename_i hx; simp at hx
  | _ => exact ⟨fun h => by first | exact h | rfl, by simp⟩

theorem joined_run {s : State} (hi : Inv s) (ho : s.owner = false) (h : joining s) (as : List Act) (hg : .ownerGone ∉ as) :
    joining (run s as) ∧ (s.cgka = true ∨ .acceptResp true ∈ (log s as).map (·.1) → (run s as).cgka = true) := by
  induction as generalizing s with
  | nil => exact ⟨h, by simp [log, run]⟩
  | cons a as ih =>
    have hs := ih (inv_step s a hi) ((step_owner s a).1.trans ho)
      (joining_step hi ho h a (by rintro rfl; exact hg (by simp))) (fun hm => hg (List.mem_cons_of_mem _ hm))
    refine ⟨hs.1, ?_⟩
    have hac := accepted_step ho a
    rintro (hc | hc)
    · exact hs.2 (.inl (hac.1 hc))
    · simp only [log, List.map_append, List.mem_append] at hc
      rcases hc with hc | hc
      · refine hs.2 (.inl ?_)
        rw [List.mem_map] at hc
        obtain ⟨⟨g, pl⟩, hm, rfl⟩ := hc
        exact hac.2 pl (by simpa using hm)
      · exact hs.2 (.inr hc)

/-- **C209, partial.** A client that has been told that it was let into the group has got exactly one channel when nothing is on
the way any more, if the owner keeps its session. Missing: to be a member is not to be told so, and a second membership, see the
counterexamples. -/
theorem C209_channel_partial (p : Bool) (c : Nat) (as : List Act) (hg : .ownerGone ∉ as)
    (hr : AtRest (run (start false p c) as)) (hm : .acceptResp true ∈ (log (start false p c) as).map (·.1)) :
    (run (start false p c) as).hs.length = 1 := by
  obtain ⟨h1, h2⟩ := joined_run (inv_start false p c) rfl (by simp [joining, start]) as hg
  have hc := h2 (.inr hm)
  have hi := (inv_run false p c as).count (run_owner false p c as).1
  obtain ⟨a, b, k, _⟩ := hr
  rcases h1 hc with h | h | h | h
  · rw [hc] at hi
    have : (run (start false p c) as).hs.length ≠ 0 := by simpa using h
    simp only [if_true] at hi
    omega
  · rw [b] at h; simp at h
  · exact absurd k h
  · rw [a] at h; simp at h

example : AtRest (run (start false false 512) (exampleKick.take 9)) ∧
    .acceptResp true ∈ (log (start false false 512) (exampleKick.take 9)).map (·.1) := by decide +kernel

/-- **C209, counterexample.** In a private group the client asks to join and the owner accepts: the answer goes to the owner only.
The client is a member, and never gets a channel. -/
theorem C209_counterexample_asked :
    let acts := [.ownerCreate, .requestJoin, .serve, .letIn, .receive]
    AtRest (run (start false false 512) acts) ∧ (run (start false false 512) acts).mem = true ∧
    (run (start false false 512) acts).hs = [] ∧ (run (start false false 512) acts).cgka = false := by decide +kernel

/-- **C209, counterexample.** A client that was kicked and is invited again becomes a member and gets no channel. -/
theorem C209_counterexample_again :
    let acts := exampleKick ++ [.accept, .serve, .receive]
    AtRest (run (start false false 512) acts) ∧ (run (start false false 512) acts).mem = true ∧
    (run (start false false 512) acts).reg = none ∧
    (log (start false false 512) acts).map (·.1) = [.other 0, .acceptResp true, .welcome, .other 5, .other 6, .disconnected,
      .other 0, .acceptResp true] := by decide +kernel

end Verif.GroupChan

import Verif.PunchPipe.Lemmas
/-
C210 to C213: the pipes of the hole puncher.
-/
namespace Verif.PunchPipe

/-! ### C211: a pipe carries packets of its own connection -/

/-- **C211.** Whatever arrives, in whatever order, and however often connections with a peer end and are made again: what a pipe
gets are packets of the connection it was made for, from the peer it was made for, in order and none twice. -/
theorem C211_own (as : List Act) (n : Nat) (p : Pipe) (h : (run start as).all[n]? = some p) :
    p.got.Sublist (arrivals p.key p.conn as) := by
  simpa using (inv_run inv_start as).sub n p h

/-- Packets of two connections with peer 5, with the second made while packets of the first are under way. -/
def twice : List Act :=
  [.create 5 1, .packet ⟨5, 9, 1, 0, 10⟩, .gone 5 true, .packet ⟨5, 9, 1, 0, 11⟩, .create 5 2, .packet ⟨5, 9, 1, 0, 12⟩,
   .packet ⟨5, 9, 2, 0, 20⟩, .packet ⟨6, 9, 2, 0, 21⟩]

example : (run start twice).all = [⟨5, 1, true, [10, 11]⟩, ⟨5, 2, true, [20]⟩] := by decide +kernel

/-! ### C210: nothing is lost while the pipe is there -/

/-- The state of the session's own pipe. -/
def Own (c : Nat) (s : Node) (as : List Act) : Prop :=
  s.c2s = some c ∧
  ((s.pipes 0 = none ∧ s.pending 0 = arrivals 0 c as ∧ as.count .openOwn = 0 ∧ ∀ p ∈ s.all, p.key ≠ 0) ∨
   (∃ n, s.pipes 0 = some n ∧ as.count .openOwn = 1 ∧
      ∀ (m : Nat) (p : Pipe), s.all[m]? = some p → p.key = 0 → m = n ∧ (p.live = true → p.got = arrivals 0 c as)))

theorem count_other (as : List Act) (a : Act) (h : a ≠ .openOwn) : (as ++ [a]).count .openOwn = as.count .openOwn := by
  rw [List.count_append, List.count_cons_of_ne (by simpa using h)]; simp

theorem own_receive {c : Nat} {s : Node} {as : List Act} (hi : Inv s as) (h : Own c s as) (p : Pkt) :
    Own c (receive s p) (as ++ [.packet p]) := by
  obtain ⟨hc, h⟩ := h
  have hcount := count_other as (.packet p) (by simp)
  by_cases hr : readable s p = true
  · simp only [receive, hr, if_true]
    by_cases hd : p.dst = 0
    · have hconn : p.conn = c := by
        have : s.c2s = some p.conn := by simpa [readable, hd] using hr
        rw [hc] at this; cases this; rfl
      have hrc : respCid p = 0 := by simp [respCid, hd]
      have harr : arrivals 0 c (as ++ [.packet p]) = arrivals 0 c as ++ [p.body] := by
        rw [arrivals_snoc]; simp [arrivals, hconn, hd]
      rw [hrc]
      rcases h with ⟨h1, h2, h3, h4⟩ | ⟨n, h1, h2, h3⟩
      · rw [h1]
        exact ⟨hc, .inl ⟨h1, by simp only [put_same]; rw [h2, harr], by rw [hcount]; exact h3, h4⟩⟩
      · rw [h1]
        refine ⟨hc, .inr ⟨n, h1, by rw [hcount]; exact h2, ?_⟩⟩
        intro m q hq hk
        simp only [send_get] at hq
        obtain ⟨x, hx, rfl⟩ := Option.map_eq_some_iff.mp hq
        have hk' : x.key = 0 := by
          split at hk <;> exact hk
        obtain ⟨rfl, h5⟩ := h3 m x hx hk'
        refine ⟨rfl, ?_⟩
        split
        · rename_i hl
          intro _
          show x.got ++ [p.body] = _
          rw [h5 hl.2, harr]
        · rename_i hl
          intro hl'
          exact absurd ⟨rfl, hl'⟩ hl
    · have harr : arrivals 0 c (as ++ [.packet p]) = arrivals 0 c as := by
        rw [arrivals_snoc]; simp [arrivals, hd]
      have hrc : respCid p ≠ 0 := by
        intro e
        have hs : p.src = 0 := by simpa [respCid, hd] using e
        simp [readable, hd, hs, hi.zero.1, hi.zero.2] at hr
      split
      · rename_i n hn
        obtain ⟨q, hq, hqk, _⟩ := hi.owned _ _ hn
        rcases h with ⟨h1, h2, h3, h4⟩ | ⟨n', h1, h2, h3⟩
        · refine ⟨hc, .inl ⟨h1, by rw [harr]; exact h2, by rw [hcount]; exact h3, ?_⟩⟩
          intro x hx
          obtain ⟨m, hm⟩ := List.mem_iff_getElem?.mp hx
          simp only [send_get] at hm
          obtain ⟨y, hy, rfl⟩ := Option.map_eq_some_iff.mp hm
          have := h4 y (List.mem_of_getElem? hy)
          split <;> exact this
        · refine ⟨hc, .inr ⟨n', h1, by rw [hcount]; exact h2, ?_⟩⟩
          intro m x hx hk
          simp only [send_get] at hx
          obtain ⟨y, hy, rfl⟩ := Option.map_eq_some_iff.mp hx
          split at hk
          · rename_i hm
            obtain ⟨rfl, _⟩ := hm
            rw [hq] at hy; cases hy
            exact absurd (hqk.symm.trans hk) hrc
          · rename_i hm
            rw [if_neg hm, harr]
            exact h3 m y hy hk
      · rename_i hn
        rcases h with ⟨h1, h2, h3, h4⟩ | ⟨n', h1, h2, h3⟩
        · refine ⟨hc, .inl ⟨h1, ?_, by rw [hcount]; exact h3, h4⟩⟩
          simp only [put_other _ (Ne.symm hrc)]
          rw [harr]; exact h2
        · exact ⟨hc, .inr ⟨n', h1, by rw [hcount]; exact h2, by rw [harr]; exact h3⟩⟩
  · have hr' : receive s p = s := by simp [receive, hr]
    have harr : arrivals 0 c (as ++ [.packet p]) = arrivals 0 c as := by
      rw [arrivals_snoc]
      by_cases hd : p.dst = 0
      · have : p.conn ≠ c := by
          intro e
          simp [readable, hd, hc, e] at hr
        simp [arrivals, this]
      · simp [arrivals, hd]
    rw [hr']
    rcases h with ⟨h1, h2, h3, h4⟩ | ⟨n', h1, h2, h3⟩
    · exact ⟨hc, .inl ⟨h1, by rw [harr]; exact h2, by rw [hcount]; exact h3, h4⟩⟩
    · exact ⟨hc, .inr ⟨n', h1, by rw [hcount]; exact h2, by rw [harr]; exact h3⟩⟩

theorem own_open_peer {c : Nat} {s : Node} {as : List Act} (h : Own c s as) (k id : Nat) (hk : k ≠ 0) (a : Act)
    (ha : ∀ p, a ≠ .packet p) (ho : a ≠ .openOwn) (f : Nat → Option VC) (g : Nat → Option (Nat × Nat)) :
    Own c (openPipe { s with vconn := f, stale := g } k id) (as ++ [a]) := by
  obtain ⟨hc, h⟩ := h
  have hcount := count_other as a ho
  have harr := arrivals_quiet 0 c as a ha
  refine ⟨hc, ?_⟩
  simp only [openPipe, put_other _ (Ne.symm hk)]
  rcases h with ⟨h1, h2, h3, h4⟩ | ⟨n', h1, h2, h3⟩
  · refine .inl ⟨h1, by rw [harr]; exact h2, by rw [hcount]; exact h3, ?_⟩
    intro x hx
    rcases List.mem_append.mp hx with hx | hx
    · exact h4 x hx
    · simp only [List.mem_singleton] at hx; subst hx; exact hk
  · refine .inr ⟨n', h1, by rw [hcount]; exact h2, ?_⟩
    intro m x hx hxk
    by_cases hlt : m < s.all.length
    · rw [List.getElem?_append_left hlt] at hx
      rw [harr]; exact h3 m x hx hxk
    · rw [List.getElem?_append_right (by omega)] at hx
      have := List.mem_of_getElem? hx
      simp only [List.mem_singleton] at this
      subst this
      exact absurd hxk hk

theorem own_step {c : Nat} {s : Node} {as : List Act} (hi : Inv s as) (h : Own c s as) (a : Act)
    (hone : (as ++ [a]).count .openOwn ≤ 1) : Own c (step s a) (as ++ [a]) := by
  have weak : ∀ (f : Nat → Option VC) (g : Nat → Option (Nat × Nat)), a ≠ .openOwn → (∀ p, a ≠ .packet p) →
      Own c { s with vconn := f, stale := g } (as ++ [a]) := by
    intro f g ho ha
    obtain ⟨hc, h⟩ := h
    have hcount := count_other as a ho
    have harr := arrivals_quiet 0 c as a ha
    refine ⟨hc, ?_⟩
    rcases h with ⟨h1, h2, h3, h4⟩ | ⟨n', h1, h2, h3⟩
    · exact .inl ⟨h1, by rw [harr]; exact h2, by rw [hcount]; exact h3, h4⟩
    · exact .inr ⟨n', h1, by rw [hcount]; exact h2, by rw [harr]; exact h3⟩
  cases a with
  | keys d =>
    simp only [step, h.1, Option.isSome_some, if_true]
    exact weak s.vconn s.stale (by simp) (by simp)
  | openOwn =>
    obtain ⟨hc, h⟩ := h
    have hcount : (as ++ [Act.openOwn]).count .openOwn = as.count .openOwn + 1 := by simp [List.count_append]
    have harr := arrivals_quiet 0 c as .openOwn (by simp)
    rcases h with ⟨h1, h2, h3, h4⟩ | ⟨n', h1, h2, h3⟩
    · simp only [step, hc]
      refine ⟨hc, .inr ⟨s.all.length, by simp [openPipe], by rw [hcount, h3], ?_⟩⟩
      intro m x hx hk
      simp only [openPipe] at hx
      by_cases hlt : m < s.all.length
      · rw [List.getElem?_append_left hlt] at hx
        exact absurd hk (h4 x (List.mem_of_getElem? hx))
      · rw [List.getElem?_append_right (by omega)] at hx
        have hm : m = s.all.length := by
          have := (List.getElem?_eq_some_iff.mp hx).1
          simp only [List.length_singleton] at this
          omega
        have := List.mem_of_getElem? hx
        simp only [List.mem_singleton] at this
        subst this
        exact ⟨hm, fun _ => by rw [harr]; exact h2⟩
    · rw [hcount, h2] at hone; omega
  | create k id =>
    simp only [step, create]
    split
    · exact weak s.vconn s.stale (by simp) (by simp)
    · rename_i hk
      split
      · split
        · exact weak s.vconn s.stale (by simp) (by simp)
        · exact own_open_peer h k id hk _ (by simp) (by simp) _ _
      · exact own_open_peer h k id hk _ (by simp) (by simp) _ _
  | idle k =>
    simp only [step]
    split
    · exact weak _ s.stale (by simp) (by simp)
    · exact weak s.vconn s.stale (by simp) (by simp)
  | gone k keep =>
    simp only [step]
    split
    · exact weak _ _ (by simp) (by simp)
    · exact weak s.vconn s.stale (by simp) (by simp)
  | rekey k old =>
    simp only [step]
    split
    · exact weak _ s.stale (by simp) (by simp)
    · exact weak s.vconn s.stale (by simp) (by simp)
  | drop n =>
    have w := weak s.vconn s.stale (by simp) (by simp)
    simp only [step]
    split
    · rename_i q hq
      obtain ⟨hc, w⟩ := w
      refine ⟨hc, ?_⟩
      rcases w with ⟨h1, h2, h3, h4⟩ | ⟨n', h1, h2, h3⟩
      · refine .inl ⟨h1, h2, h3, ?_⟩
        intro x hx
        rcases List.mem_or_eq_of_mem_set hx with hx | rfl
        · exact h4 x hx
        · exact h4 q (List.mem_of_getElem? hq)
      · refine .inr ⟨n', h1, h2, ?_⟩
        intro m x hx hk
        rw [List.getElem?_set] at hx
        split at hx
        · rename_i e
          rw [if_pos (List.getElem?_eq_some_iff.mp hq).1] at hx
          cases hx
          subst e
          exact ⟨(h3 n q hq hk).1, fun hl => by cases hl⟩
        · exact h3 m x hx hk
    · exact w
  | packet p => exact own_receive hi h p

theorem own_run {c : Nat} {s : Node} {pre : List Act} (hi : Inv s pre) (h : Own c s pre) (as : List Act)
    (hone : (pre ++ as).count .openOwn ≤ 1) : Own c (run s as) (pre ++ as) := by
  induction as generalizing s pre with
  | nil => rw [List.append_nil]; exact h
  | cons a as ih =>
    rw [show pre ++ a :: as = (pre ++ [a]) ++ as by simp] at hone ⊢
    refine ih (inv_step hi a) (own_step hi h a ?_) hone
    rw [List.count_append] at hone
    omega

theorem own_start (c : Nat) : Own c (step start (.keys c)) [.keys c] :=
  ⟨by simp [step, start], .inl ⟨rfl, rfl, by simp, by simp [step, start]⟩⟩

/-- **C210.** The pipe of the session itself, while it is read from, has got every packet of the session, those before it was
made included, in order and once. -/
theorem C210_session (c : Nat) (as : List Act) (hone : as.count .openOwn ≤ 1) (n : Nat) (p : Pipe)
    (h : (run start (.keys c :: as)).all[n]? = some p) (hk : p.key = 0) (hl : p.live = true) : p.got = arrivals 0 c as := by
  have hi : Inv (step start (.keys c)) [.keys c] := inv_step inv_start (.keys c)
  have ho := own_run hi (own_start c) as (by simpa using hone)
  have harr : arrivals 0 c ([.keys c] ++ as) = arrivals 0 c as := by simp [arrivals]
  obtain ⟨_, ho⟩ := ho
  rw [harr] at ho
  rcases ho with ⟨_, _, _, h4⟩ | ⟨m, _, _, h3⟩
  · exact absurd hk (h4 p (List.mem_of_getElem? h))
  · exact (h3 n p h hk).2 hl

example : (run start [.keys 3, .packet ⟨8, 0, 3, 0, 1⟩, .packet ⟨8, 0, 3, 0, 2⟩, .openOwn, .create 5 7, .packet ⟨5, 8, 7, 0, 9⟩,
    .packet ⟨8, 0, 3, 0, 3⟩]).all = [⟨0, 3, true, [1, 2, 3]⟩, ⟨5, 7, true, [9]⟩] := by decide +kernel

/-- The connection with `k` is there with its first ratchet, and `n` is its pipe. -/
structure Serving (k id n : Nat) (s : Node) (got : List Nat) : Prop where
  vc : ∃ v, s.vconn k = some v ∧ v.id = id ∧ v.old = 0
  reg : s.pipes k = some n
  pipe : s.all[n]? = some ⟨k, id, true, got⟩

theorem serving_openPipe {k id n : Nat} {s : Node} {got : List Nat} (h : Serving k id n s got) (j c : Nat) (hj : j ≠ k)
    (f : Nat → Option VC) (g : Nat → Option (Nat × Nat)) (hf : f k = s.vconn k) :
    Serving k id n (openPipe { s with vconn := f, stale := g } j c) got := by
  refine ⟨?_, ?_, ?_⟩
  · simp only [openPipe, hf]; exact h.vc
  · simp only [openPipe, put_other _ (Ne.symm hj)]; exact h.reg
  · simp only [openPipe]
    rw [List.getElem?_append_left (List.getElem?_eq_some_iff.mp h.pipe).1]; exact h.pipe

theorem serving_step {k id n : Nat} {s : Node} {got : List Nat} {as : List Act} (hi : Inv s as) (hk : k ≠ 0)
    (h : Serving k id n s got) (a : Act) (ha : Leaves k n a) : Serving k id n (step s a) (got ++ arrivals k id [a]) := by
  obtain ⟨v, hv, hid, hold⟩ := h.vc
  cases a with
  | keys d =>
    simp only [step, arrivals, List.filterMap_cons_none, List.filterMap_nil, List.append_nil]
    split
    · exact h
    · exact ⟨h.vc, h.reg, h.pipe⟩
  | openOwn =>
    simp only [step, arrivals, List.filterMap_cons_none, List.filterMap_nil, List.append_nil]
    split
    · exact serving_openPipe h 0 _ (Ne.symm hk) s.vconn s.stale rfl
    · exact h
  | create j i =>
    have hj : j ≠ k := ha
    simp only [step, arrivals, List.filterMap_cons_none, List.filterMap_nil, List.append_nil, create]
    split
    · exact h
    · split
      · split
        · exact h
        · exact serving_openPipe h j i hj _ _ (put_other _ (Ne.symm hj) _)
      · exact serving_openPipe h j i hj _ _ (put_other _ (Ne.symm hj) _)
  | idle j =>
    simp only [step, arrivals, List.filterMap_cons_none, List.filterMap_nil, List.append_nil]
    split
    · rename_i w hw
      refine ⟨?_, h.reg, h.pipe⟩
      by_cases hj : k = j
      · subst hj
        rw [hv] at hw; cases hw
        exact ⟨_, put_same .., hid, hold⟩
      · exact ⟨v, (put_other _ hj _).trans hv, hid, hold⟩
    · exact h
  | gone j keep =>
    have hj : j ≠ k := ha
    simp only [step, arrivals, List.filterMap_cons_none, List.filterMap_nil, List.append_nil]
    split
    · exact ⟨⟨v, (put_other _ (Ne.symm hj) _).trans hv, hid, hold⟩, h.reg, h.pipe⟩
    · exact h
  | rekey j old =>
    simp only [step, arrivals, List.filterMap_cons_none, List.filterMap_nil, List.append_nil]
    split
    · rename_i w hw
      refine ⟨?_, h.reg, h.pipe⟩
      by_cases hj : k = j
      · subst hj
        rw [hv] at hw; cases hw
        have ho : old = 0 := ha.resolve_left (fun e => e rfl)
        exact ⟨_, put_same .., hid, by simp [ho, hold]⟩
      · exact ⟨v, (put_other _ hj _).trans hv, hid, hold⟩
    · exact h
  | drop m =>
    have hm : m ≠ n := ha
    simp only [step, arrivals, List.filterMap_cons_none, List.filterMap_nil, List.append_nil]
    split
    · exact ⟨h.vc, h.reg, by simp only [List.getElem?_set, hm, if_false]; exact h.pipe⟩
    · exact h
  | packet p =>
    have hver : p.dst ≠ 0 → p.src = k → p.ver = 0 := ha
    simp only [step, receive]
    by_cases hmine : p.dst ≠ 0 ∧ p.src = k
    · obtain ⟨hd, hs⟩ := hmine
      have h0 := hver hd hs
      have hrc : respCid p = k := by simp [respCid, hd, hs]
      by_cases hconn : p.conn = id
      · have hr : readable s p = true := by simp [readable, hd, hs, hv, hold, h0, hid, hconn]
        have harr : arrivals k id [.packet p] = [p.body] := by simp [arrivals, hconn, hk, hd, hs]
        simp only [hr, if_true, hrc, h.reg]
        refine ⟨h.vc, h.reg, ?_⟩
        simp only [send_get, h.pipe, harr, Option.map_some, and_self, if_true]
      · have hr : readable s p = false := by simp [readable, hd, hs, hv, hid, Ne.symm hconn]
        have harr : arrivals k id [.packet p] = [] := by simp [arrivals, hconn]
        simp only [hr, harr, List.append_nil]
        exact h
    · have harr : arrivals k id [.packet p] = [] := by
        simp only [arrivals, hk, if_false, hmine, and_false, List.filterMap_cons, List.filterMap_nil]
      rw [harr, List.append_nil]
      split
      · rename_i hr
        have hrc : respCid p ≠ k := by
          intro e
          unfold respCid at e
          split at e
          · rename_i hd; exact hmine ⟨hd, e⟩
          · exact hk e.symm
        split
        · rename_i m hm
          obtain ⟨q, hq, hqk, _⟩ := hi.owned _ _ hm
          have hmn : n ≠ m := by
            rintro rfl
            rw [h.pipe] at hq; cases hq
            exact hrc hqk.symm
          refine ⟨h.vc, h.reg, ?_⟩
          simp only [send_get, h.pipe, hmn, false_and, if_false, Option.map_some]
        · exact ⟨h.vc, h.reg, h.pipe⟩
      · exact h

theorem serving_run {k id n : Nat} {s : Node} {got : List Nat} {pre : List Act} (hi : Inv s pre) (hk : k ≠ 0)
    (h : Serving k id n s got) (as : List Act) (ha : ∀ a ∈ as, Leaves k n a) :
    Serving k id n (run s as) (got ++ arrivals k id as) := by
  induction as generalizing s got pre with
  | nil => simpa [arrivals, run] using h
  | cons a as ih =>
    have h1 := serving_step hi hk h a (ha a List.mem_cons_self)
    have := ih (inv_step hi a) h1 fun b hb => ha b (List.mem_cons_of_mem _ hb)
    rw [show arrivals k id (a :: as) = arrivals k id [a] ++ arrivals k id as from
      List.filterMap_append (l := [a]) (l' := as), ← List.append_assoc]
    exact this

/-- **C210.** From the time a connection with a peer is made, as long as it and its first ratchet are there and the pipe is read
from, the pipe gets every packet of the connection, in order and once, whatever other connections, pipes and packets do. -/
theorem C210_peer (before after : List Act) (k id : Nat) (hk : k ≠ 0)
    (hfree : ∀ v, (run start before).vconn k = some v → v.active = false)
    (ha : ∀ a ∈ after, Leaves k (run start before).all.length a) :
    (run start (before ++ .create k id :: after)).all[(run start before).all.length]? =
      some ⟨k, id, true, arrivals k id after⟩ := by
  rw [run_append]
  have hi := inv_run inv_start before
  generalize run start before = s at *
  have h0 : Serving k id s.all.length (step s (.create k id)) [] := by
    have hp := hi.nopend k hk
    have : step s (.create k id) =
        openPipe { s with vconn := put s.vconn k (some { id := id }), stale := put s.stale k none } k id := by
      simp only [step, create, hk, if_false]
      split
      · rename_i v hv; simp [hfree v hv]
      · rfl
    rw [this]
    refine ⟨⟨_, by simp only [openPipe, put_same]; rfl, rfl, rfl⟩, by simp [openPipe], ?_⟩
    simp [openPipe, hp]
  have := serving_run (inv_step hi _) hk h0 after ha
  rw [List.nil_append] at this
  exact this.pipe

/-- **C210.** Both ends agree on the pipe: what the hole puncher of one peer sends over its pipe comes out of the pipe that the
other has made for the connection. -/
theorem C210_end_to_end (before : List Act) (a b id : Nat) (ha : a ≠ 0) (hb : b ≠ 0) (bodies : List Nat)
    (hfree : ∀ v, (run start before).vconn a = some v → v.active = false) :
    (run start (before ++ .create a id :: bodies.map fun x => .packet (packetOf a ⟨b, id, true, []⟩ x))).all[
      (run start before).all.length]? = some ⟨a, id, true, bodies⟩ := by
  rw [C210_peer before _ a id ha hfree]
  · congr 2
    induction bodies with
    | nil => rfl
    | cons x l ih =>
      simp only [List.map_cons]
      rw [show arrivals a id (.packet (packetOf a ⟨b, id, true, []⟩ x) :: l.map fun x => .packet (packetOf a ⟨b, id, true, []⟩ x)) =
        x :: arrivals a id (l.map fun x => .packet (packetOf a ⟨b, id, true, []⟩ x)) by
          simp [arrivals, packetOf, ha, hb]]
      rw [ih]
  · intro x hx
    obtain ⟨y, _, rfl⟩ := List.mem_map.mp hx
    exact fun _ _ => rfl

example : (run start (twice ++ [.gone 5 false] ++ .create 5 3 :: [7, 8].map fun x => .packet (packetOf 5 ⟨9, 3, true, []⟩ x))).all[2]? =
    some ⟨5, 3, true, [7, 8]⟩ := by decide +kernel

/-! ### C212: packets before the pipe -/

/-- **C212, partial.** Packets of the session itself that arrive before its pipe is made are kept for it. Missing: packets of
peers, see the counterexample. -/
theorem C212_early_partial (c : Nat) (as : List Act) (h : .openOwn ∉ as) :
    ∃ n : Nat, (run start (.keys c :: as ++ [.openOwn])).all[n]? = some ⟨0, c, true, arrivals 0 c as⟩ := by
  have hi : Inv (step start (.keys c)) [.keys c] := inv_step inv_start (.keys c)
  have hc0 : as.count .openOwn = 0 := List.count_eq_zero.mpr h
  have ho := own_run hi (own_start c) as (by simp [hc0])
  have harr : arrivals 0 c ([.keys c] ++ as) = arrivals 0 c as := by simp [arrivals]
  obtain ⟨hc, ho⟩ := ho
  rw [harr] at ho
  rw [run_append]
  show ∃ n : Nat, (run (run (step start (.keys c)) as) [.openOwn]).all[n]? = _
  generalize run (step start (.keys c)) as = s at *
  rcases ho with ⟨_, h2, _, _⟩ | ⟨m, _, h2, _⟩
  · refine ⟨s.all.length, ?_⟩
    simp [run, step, hc, openPipe, h2]
  · simp [hc0] at h2

/-- **C212.** The queue for packets that come before a pipe is never used for a peer: without a connection there is no ratchet to
read the packet with, and with the connection there is the pipe. -/
theorem C212_never_used (as : List Act) (k : Nat) (hk : k ≠ 0) : (run start as).pending k = [] :=
  (inv_run inv_start as).nopend k hk

/-- **C212, counterexample.** A packet of a peer that arrives just before the connection is made is lost. -/
theorem C212_counterexample :
    (run start [.packet ⟨5, 9, 1, 0, 10⟩, .create 5 1, .packet ⟨5, 9, 1, 0, 11⟩]).all = [⟨5, 1, true, [11]⟩] := by decide +kernel

/-! ### C213: what is kept -/

theorem pile (n : Nat) (s : Node) (c : Nat) (hc : s.c2s = some c) (hp : s.pipes 0 = none) (x : Nat) :
    (run s (List.replicate n (.packet ⟨x, 0, c, 0, 1⟩))).pending 0 = s.pending 0 ++ List.replicate n 1 := by
  induction n generalizing s with
  | zero => simp [run]
  | succ n ih =>
    have h1 : step s (.packet ⟨x, 0, c, 0, 1⟩) = { s with pending := put s.pending 0 (s.pending 0 ++ [1]) } := by
      simp [step, receive, readable, hc, respCid, hp]
    rw [List.replicate_succ]
    show (run (step s _) _).pending 0 = _
    rw [h1, ih]
    · simp [List.replicate_succ]
    · exact hc
    · exact hp

/-- **C213, counterexample.** A session whose pipe is never made (UDP is disabled) keeps every hole-punch packet it gets, without
a limit. -/
theorem C213_counterexample (n c x : Nat) :
    ((run start (.keys c :: List.replicate n (.packet ⟨x, 0, c, 0, 1⟩))).pending 0).length = n := by
  show ((run (step start (.keys c)) _).pending 0).length = n
  rw [pile n _ c (by simp [step, start]) (by simp [step, start])]
  simp [step, start]

/-- **C213, counterexample.** The entry of a pipe stays when its connection is gone and its reader too. -/
theorem C213_counterexample_pipe : (run start [.create 5 1, .drop 0, .gone 5 false]).pipes 5 = some 0 := by decide +kernel

theorem step_pipes (s : Node) (a : Act) (k : Nat) (hk : k ≠ 0) (ha : ∀ i, a ≠ .create k i) : (step s a).pipes k = s.pipes k := by
  cases a with
  | create j i =>
    have hj : k ≠ j := fun e => ha i (by rw [e])
    simp only [step, create]
    split
    · rfl
    · split
      · split
        · rfl
        · simp only [openPipe, put_other _ hj]
      · simp only [openPipe, put_other _ hj]
  | openOwn =>
    simp only [step]
    split
    · simp only [openPipe, put_other _ hk]
    · rfl
  | packet p =>
    simp only [step, receive]
    split
    · split <;> rfl
    · rfl
  | _ => simp only [step]; split <;> rfl

/-- **C213, partial.** Only peers that a connection was made with have an entry; nothing is queued for the others. Missing: packets
of the session itself, and the end of an entry. -/
theorem C213_entries_partial (as : List Act) (k : Nat) (hk : k ≠ 0) (h : ∀ i, .create k i ∉ as) :
    (run start as).pipes k = none ∧ (run start as).pending k = [] := by
  refine ⟨?_, C212_never_used as k hk⟩
  suffices ∀ s : Node, s.pipes k = none → (run s as).pipes k = none from this start rfl
  induction as with
  | nil => intro s hs; exact hs
  | cons a as ih =>
    intro s hs
    refine ih (fun i hi => h i (List.mem_cons_of_mem _ hi)) _ ?_
    rw [step_pipes s a k hk]
    · exact hs
    · rintro i rfl
      exact h i List.mem_cons_self

end Verif.PunchPipe

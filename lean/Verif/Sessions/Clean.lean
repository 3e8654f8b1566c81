import Verif.Sessions.Calm
/-!
Clean executions: nothing stale stays in `sessions`; and what happens if something does.
-/
namespace Verif.Sessions
open AMap

/-- What is found under a CID, with more details. -/
def Mgr.Fresh (m : Mgr) : Prop :=
  ∀ (c : Cid) (i : Nat), m.online.get? c = some i →
    ∃ s, m.sess[i]? = some s ∧ s.over = false ∧ s.cid = some c ∧ s.conn = true

theorem Mgr.Fresh.upd {m m' : Mgr} (h : m.Fresh) {sid : Nat} {s s' : Sess} (hs : m.sess[sid]? = some s)
    (hs' : m'.sess = m.sess.set sid s')
    (ho : ∀ c i, m'.online.get? c = some i → m.online.get? c = some i)
    (hk : ∀ c, m'.online.get? c = some sid → s.over = false → s.cid = some c → s.conn = true →
      s'.over = false ∧ s'.cid = some c ∧ s'.conn = true) : m'.Fresh := by
  intro c i hi
  obtain ⟨x, hx, x1, x2, x3⟩ := h c i (ho c i hi)
  rw [hs', get_set hs]
  split
  · rename_i e
    subst e
    obtain rfl : s = x := Option.some.inj (hs.symm.trans hx)
    exact ⟨s', rfl, hk c hi x1 x2 x3⟩
  · exact ⟨x, hx, x1, x2, x3⟩

theorem Mgr.Fresh.set {m m' : Mgr} (h : m.Fresh) {sid : Nat} {s s' : Sess} (hs : m.sess[sid]? = some s)
    (hs' : m'.sess = m.sess.set sid s') (ho : m'.online = m.online)
    (hk : s'.over = s.over ∧ s'.cid = s.cid ∧ s'.conn = s.conn) : m'.Fresh :=
  h.upd hs hs' (fun _ _ e => ho ▸ e) (fun _ _ h1 h2 h3 => ⟨hk.1.trans h1, hk.2.1.trans h2, hk.2.2.trans h3⟩)

theorem cleared_online_none {m : Mgr} {sid : Nat} {s : Sess} {c : Cid} (hc : s.cid = some c) :
    (m.cleared sid s false).online.get? c ≠ some sid := by
  unfold Mgr.cleared
  rw [clearProv_online]
  unfold Mgr.clearOnline
  rw [hc]
  show (m.clearSession sid c).online.get? c ≠ some sid
  unfold Mgr.clearSession
  split
  · simp
  · assumption

theorem Mgr.Fresh.step {m : Mgr} (h : m.Fresh) (hb : Base m) {ev : Ev} (hc : m.Clean ev) : (m.step ev).Fresh := by
  cases ev with
  | accept addr =>
    intro c i hi
    obtain ⟨s, hs, r⟩ := h c i hi
    refine ⟨s, ?_, r⟩
    show (m.sess ++ _)[i]? = some s
    rw [List.getElem?_append_left (List.getElem?_eq_some_iff.mp hs).1]
    exact hs
  | syn sid c k =>
    simp only [Mgr.step]
    split
    · exact h
    · rename_i s hs
      split
      · exact h
      · rename_i hg
        unfold Mgr.syn
        dsimp only
        split
        · rename_i i _
          split
          · exact h
          · rename_i x hx
            split
            · exact h.set hs rfl rfl ⟨rfl, rfl, rfl⟩
            · split
              · exact h.set hs rfl rfl ⟨rfl, rfl, rfl⟩
              · rename_i hd hli
                have hne : sid ≠ i := by
                  rintro rfl
                  obtain rfl : s = x := Option.some.inj (hs.symm.trans hx)
                  have : s.st = .provisional := Decidable.byContradiction fun e => hg (Or.inr e)
                  rw [this] at hd
                  exact hd (by simp)
                have h1 : ({ m with sess := m.sess.set i { x with listener := some m.nextTok } } : Mgr).Fresh :=
                  h.set hx rfl rfl ⟨rfl, rfl, rfl⟩
                refine h1.set (s := s) ?_ rfl rfl ⟨rfl, rfl, rfl⟩
                show (m.sess.set i _)[sid]? = some s
                rw [get_set hx, if_neg hne]
                exact hs
        · split
          · exact h.set hs rfl rfl ⟨rfl, rfl, rfl⟩
          · exact h.set hs rfl rfl ⟨rfl, rfl, rfl⟩
  | wake sid i =>
    simp only [Mgr.step]
    split
    · exact h
    · rename_i s hs
      split
      · exact h.set hs rfl rfl ⟨rfl, rfl, rfl⟩
      · exact h
  | timeout sid i =>
    simp only [Mgr.step]
    split
    · exact h
    · rename_i s hs
      split
      · exact h.upd hs rfl (fun c i e => (sub_erase e).1) (fun _ _ h1 h2 h3 => ⟨h1, h2, h3⟩)
      · exact h
  | goOn sid i r =>
    simp only [Mgr.step]
    split
    · exact h
    · rename_i s hs
      split
      · unfold Mgr.goOn
        cases r with
        | valid =>
          dsimp only
          split
          · exact h.set hs rfl rfl ⟨rfl, rfl, rfl⟩
          · rename_i hrc
            refine h.upd hs rfl (fun _ _ e => e) ?_
            intro c _ _ _ hcn
            have hrn : s.rcid = none := by
              cases e : s.rcid with
              | none => rfl
              | some x => exact absurd (by simp [e]) hrc
            exact absurd hrn ((hb.loc sid s hs).conn hcn)
        | invalid => exact h.set hs rfl rfl ⟨rfl, rfl, rfl⟩
        | error => exact h.set hs rfl rfl ⟨rfl, rfl, rfl⟩
      · exact h
  | connect sid =>
    simp only [Mgr.step]
    split
    · exact h
    · rename_i s hs
      split
      · exact h
      · rename_i c hr
        split
        · exact h
        · rename_i hg
          have he : s.ended = false := by
            cases he : s.ended with
            | false => rfl
            | true => exact absurd (Or.inl he) hg
          have hL := hb.loc sid s hs
          unfold Mgr.upgrade
          split
          · exact h.set hs rfl rfl ⟨rfl, rfl, rfl⟩
          · rename_i i hp
            obtain rfl := hb.own hs he hp
            intro c' j hj0
            have hj : (m.online.insert c i).get? c' = some j := hj0
            clear hj0
            show ∃ x, (m.sess.set i _)[j]? = some x ∧ _
            rw [get_set hs]
            rw [get?_insert] at hj
            have hov : s.over = false := by
              cases ho : s.over with
              | false => rfl
              | true =>
                rw [hL.over ho] at he
                cases he
            split at hj
            · rename_i e
              subst e
              obtain rfl := Option.some.inj hj
              rw [if_pos rfl]
              exact ⟨_, rfl, hov, hL.cid he c' hr, rfl⟩
            · obtain ⟨x, hx, x1, x2, x3⟩ := h c' j hj
              split
              · rename_i e
                subst e
                obtain rfl : s = x := Option.some.inj (hs.symm.trans hx)
                exact ⟨_, rfl, x1, x2, rfl⟩
              · exact ⟨x, hx, x1, x2, x3⟩
  | connected sid i ok =>
    simp only [Mgr.step]
    split
    · exact h
    · rename_i s hs
      have hL := hb.loc sid s hs
      split
      · rename_i c hp
        split
        · refine h.set hs rfl rfl ⟨rfl, ?_, rfl⟩
          exact (hL.cid (hL.running hp) c (hL.pend c (List.mem_of_getElem? hp)).1).symm
        · exact h.set hs rfl rfl ⟨rfl, rfl, rfl⟩
      · exact h
  | disc sid =>
    simp only [Mgr.step]
    split
    · exact h
    · rename_i s hs
      split
      · exact h
      · exact h.set hs rfl rfl ⟨rfl, rfl, rfl⟩
  | reset sid =>
    simp only [Mgr.step]
    split
    · exact h
    · rename_i s hs
      split
      · exact h
      · exact h.set hs rfl rfl ⟨rfl, rfl, rfl⟩
  | failure sid =>
    simp only [Mgr.step]
    split
    · exact h
    · rename_i s hs
      split
      · exact h
      · refine h.upd hs rfl (fun _ _ e => e) ?_
        intro c _ _ _ hcn
        rw [hc s hs] at hcn
        cases hcn
  | regFail sid =>
    simp only [Mgr.step]
    split
    · exact h
    · split
      · exact h
      · intro c i hi
        rw [clearProv_online] at hi
        rw [clearProv_sess]
        exact h c i hi
  | finish sid panic =>
    cases hs : m.sess[sid]? with
    | none =>
      have : m.step (.finish sid panic) = m := by
        simp only [Mgr.step]
        rw [hs]
      rw [this]
      exact h
    | some s =>
      cases ho : s.over with
      | true =>
        have : m.step (.finish sid panic) = m := by
          simp only [Mgr.step]
          rw [hs]
          simp only [ho, if_true]
        rw [this]
        exact h
      | false =>
        rw [finish_eq hs ho]
        obtain ⟨-, -, -, r4⟩ := cleared_rest m sid s panic
        refine h.upd hs (s' := s.gone) (by rw [← cleared_sess m sid s panic]; rfl) ?_ ?_
        · intro c i e
          rcases r4 c with r | ⟨r, r', -⟩
          · exact r.symm.trans e
          · exact absurd (r'.symm.trans e) (by simp)
        · intro c hon _ hcid hcn
          rw [hc s hs hcn] at hon
          exact absurd hon (cleared_online_none hcid)
  | tick n => exact h

theorem RunWith.fresh {evs : List Ev} {m : Mgr} (h : RunWith Mgr.Clean evs m) : m.Fresh := by
  induction h with
  | init =>
    intro c i e
    simp [Mgr.init] at e
  | step hr _ hc ih => exact ih.step hr.run.base hc

theorem RunWith.mono {P Q : Mgr → Ev → Prop} {evs : List Ev} {m : Mgr} (h : RunWith P evs m)
    (hPQ : ∀ m ev, P m ev → Q m ev) : RunWith Q evs m := by
  induction h with
  | init => exact .init
  | step _ ha hc ih => exact ih.step ha (hPQ _ _ hc)

/-- Continuations of an execution. -/
inductive Later (m : Mgr) : Mgr → Prop
  | refl : Later m m
  | step {m' ev} : Later m m' → m'.Allowed ev → Later m (m'.step ev)

theorem Run.later {evs : List Ev} {m m' : Mgr} (h : Run evs m) (hl : Later m m') : ∃ evs', Run (evs ++ evs') m' := by
  induction hl with
  | refl => exact ⟨[], by simpa using h⟩
  | step _ ha ih =>
    obtain ⟨evs', hr⟩ := ih
    exact ⟨evs' ++ [_], by
      rw [← List.append_assoc]
      exact hr.step ha⟩

/-- A session that is over is still found under the CID, and it has a drop listener that nobody will ever use. -/
structure Locked (m : Mgr) (c : Cid) (z : Nat) (x : Sess) : Prop where
  base : Base m
  online : m.online.get? c = some z
  sess : m.sess[z]? = some x
  over : x.over = true
  st : x.st = .disconnecting
  listener : x.listener ≠ none
  free : ∀ (i : Nat) (s : Sess), m.sess[i]? = some s → s.ended = false → s.rcid ≠ some c ∧
    ∀ p ∈ s.pend, (∀ t, p ≠ .syn c t) ∧ ∀ on tok, p ≠ .wait c on tok

theorem Locked.upd {m m' : Mgr} {c : Cid} {z : Nat} {x : Sess} (h : Locked m c z x) (hb : Base m') {sid : Nat} {s s' : Sess}
    (hs : m.sess[sid]? = some s) (hs' : m'.sess = m.sess.set sid s') (hz : s.over = false)
    (ho : m'.online.get? c = m.online.get? c)
    (hf : s'.ended = false → s.ended = false ∧ s'.rcid ≠ some c ∧
      ∀ p ∈ s'.pend, p ∈ s.pend ∨ ((∀ t, p ≠ .syn c t) ∧ ∀ on tok, p ≠ .wait c on tok)) : Locked m' c z x := by
  have hne : z ≠ sid := by
    rintro rfl
    obtain rfl : s = x := Option.some.inj (hs.symm.trans h.sess)
    rw [h.over] at hz
    cases hz
  refine ⟨hb, ho.trans h.online, ?_, h.over, h.st, h.listener, ?_⟩
  · rw [hs', get_set hs, if_neg hne]
    exact h.sess
  · intro i y hi hy
    rw [hs', get_set hs] at hi
    split at hi
    · obtain rfl := Option.some.inj hi
      obtain ⟨e1, e2, e3⟩ := hf hy
      refine ⟨e2, ?_⟩
      intro p hp
      rcases e3 p hp with hp | hp
      · exact (h.free sid s hs e1).2 p hp
      · exact hp
    · exact h.free i y hi hy

theorem Loc.notOver {s : Sess} (h : Loc s) (he : s.ended = false) : s.over = false := by
  cases ho : s.over with
  | false => rfl
  | true =>
    rw [h.over ho] at he
    cases he

theorem Locked.step {m : Mgr} {c : Cid} {z : Nat} {x : Sess} (h : Locked m c z x) {ev : Ev} (ha : m.Allowed ev) :
    Locked (m.step ev) c z x := by
  have hb := h.base.step ha
  cases ev with
  | accept addr =>
    refine ⟨hb, h.online, ?_, h.over, h.st, h.listener, ?_⟩
    · show (m.sess ++ _)[z]? = some x
      rw [List.getElem?_append_left (List.getElem?_eq_some_iff.mp h.sess).1]
      exact h.sess
    · intro i s hi he
      have hi : (m.sess ++ [({ addr := addr } : Sess)])[i]? = some s := hi
      rw [List.getElem?_append] at hi
      split at hi
      · exact h.free i s hi he
      · have hm := List.mem_of_getElem? hi
        rw [List.mem_singleton] at hm
        subst hm
        exact ⟨by simp, by simp⟩
  | syn sid c' k =>
    simp only [Mgr.step] at hb ⊢
    cases hs : m.sess[sid]? with
    | none => exact h
    | some s =>
      rw [hs] at hb
      dsimp only at hb ⊢
      split
      · exact h
      · rename_i hg
        rw [if_neg hg] at hb
        have hL := h.base.loc sid s hs
        have he : s.ended = false := by
          cases he : s.ended with
          | false => rfl
          | true => exact absurd (Or.inl he) hg
        have hov := hL.notOver he
        have hst : s.st = .provisional := Decidable.byContradiction fun e => hg (Or.inr e)
        have hrc := (h.free sid s hs he).1
        have hdead : ∀ {m' : Mgr}, m' = { m with resv := m.fresh }.set sid s.halt → Base m' → Locked m' c z x := by
          rintro m' rfl hb'
          exact h.upd hb' hs rfl hov rfl (fun e => by cases e)
        have hadd : ∀ p : Pend, (∀ t, p ≠ .syn c t) → (∀ on tok, p ≠ .wait c on tok) →
            (s.suspend p).ended = false → s.ended = false ∧ (s.suspend p).rcid ≠ some c ∧
            ∀ q ∈ (s.suspend p).pend, q ∈ s.pend ∨ ((∀ t, q ≠ .syn c t) ∧ ∀ on tok, q ≠ .wait c on tok) := by
          intro p hp1 hp2 _
          refine ⟨he, hrc, ?_⟩
          intro q hq
          rcases List.mem_append.mp hq with hq | hq
          · exact .inl hq
          · rw [List.mem_singleton] at hq
            subst hq
            exact .inr ⟨hp1, hp2⟩
        unfold Mgr.syn at hb ⊢
        dsimp only at hb ⊢
        have hfeq : ({ m with resv := m.fresh } : Mgr).find c' k = m.find c' k := rfl
        rw [hfeq] at hb ⊢
        by_cases hcc : c' = c
        · subst hcc
          have hf : m.find c' k = some z := by
            unfold Mgr.find
            rw [h.online]
          rw [hf] at hb ⊢
          dsimp only at hb ⊢
          rw [h.sess] at hb ⊢
          dsimp only at hb ⊢
          have hn : ¬ (x.st ≠ .disconnecting) := fun e => e h.st
          have hl : x.listener.isSome = true := by
            cases e : x.listener with
            | none => exact absurd e h.listener
            | some t => rfl
          rw [if_neg hn, if_pos hl] at hb ⊢
          exact hdead rfl hb
        · cases hf : m.find c' k with
          | some i =>
            rw [hf] at hb
            dsimp only at hb ⊢
            cases hx : m.sess[i]? with
            | none =>
              rw [hx] at hb
              exact ⟨hb, h.online, h.sess, h.over, h.st, h.listener, h.free⟩
            | some y =>
              rw [hx] at hb
              dsimp only at hb ⊢
              split
              · rename_i hd
                rw [if_pos hd] at hb
                exact hdead rfl hb
              · rename_i hd
                rw [if_neg hd] at hb
                split
                · rename_i hli
                  rw [if_pos hli] at hb
                  exact hdead rfl hb
                · rename_i hli
                  rw [if_neg hli] at hb
                  have hne : sid ≠ i := by
                    rintro rfl
                    obtain rfl : s = y := Option.some.inj (hs.symm.trans hx)
                    rw [hst] at hd
                    exact hd (by simp)
                  have hnz : i ≠ z := by
                    rintro rfl
                    obtain rfl : x = y := Option.some.inj (h.sess.symm.trans hx)
                    cases e : x.listener with
                    | none => exact h.listener e
                    | some t => exact hli (by rw [e]; rfl)
                  have hzs : z ≠ sid := by
                    rintro rfl
                    obtain rfl : x = s := Option.some.inj (h.sess.symm.trans hs)
                    rw [h.over] at hov
                    cases hov
                  have hgs : (m.sess.set i { y with listener := some m.nextTok })[sid]? = some s := by
                    rw [get_set hx, if_neg hne]
                    exact hs
                  refine ⟨hb, h.online, ?_, h.over, h.st, h.listener, ?_⟩
                  · show ((m.sess.set i _).set sid _)[z]? = some x
                    rw [get_set hgs, if_neg hzs, get_set hx, if_neg hnz.symm]
                    exact h.sess
                  · intro j w hj hw
                    have hj : ((m.sess.set i { y with listener := some m.nextTok }).set sid
                      (s.suspend (.wait c' i m.nextTok)))[j]? = some w := hj
                    rw [get_set hgs] at hj
                    split at hj
                    · obtain rfl := Option.some.inj hj
                      have := hadd (.wait c' i m.nextTok) (by intro t e; cases e) (by
                        intro on tok e
                        cases e
                        exact hcc rfl) he
                      refine ⟨this.2.1, ?_⟩
                      intro p hp
                      rcases this.2.2 p hp with hp | hp
                      · exact (h.free sid s hs he).2 p hp
                      · exact hp
                    · rw [get_set hx] at hj
                      split at hj
                      · obtain rfl := Option.some.inj hj
                        exact h.free i y hx hw
                      · exact h.free j w hj hw
          | none =>
            rw [hf] at hb
            dsimp only at hb ⊢
            split
            · rename_i hr
              rw [if_pos hr] at hb
              exact hdead rfl hb
            · rename_i hr
              rw [if_neg hr] at hb
              refine h.upd hb hs rfl hov rfl (hadd _ ?_ ?_)
              · intro t e
                cases e
                exact hcc rfl
              · intro on tok e
                cases e
  | wake sid i =>
    simp only [Mgr.step] at hb ⊢
    split
    · exact h
    · rename_i s hs
      rw [hs] at hb
      dsimp only at hb
      split
      · rename_i c' on tok hp
        rw [hp] at hb
        dsimp only at hb
        have hL := h.base.loc sid s hs
        have he := hL.running hp
        have hfr := h.free sid s hs he
        refine h.upd hb hs rfl (hL.notOver he) rfl ?_
        intro _
        refine ⟨he, hfr.1, ?_⟩
        intro p hpm
        rcases List.mem_append.mp hpm with hpm | hpm
        · exact .inl (mem_eraseIdx hpm)
        · rw [List.mem_singleton] at hpm
          subst hpm
          refine .inr ⟨?_, by intro on tok e; cases e⟩
          intro t e
          cases e
          exact (hfr.2 _ (List.mem_of_getElem? hp)).2 on tok rfl
      · exact h
  | timeout sid i =>
    simp only [Mgr.step] at hb ⊢
    split
    · exact h
    · rename_i s hs
      rw [hs] at hb
      dsimp only at hb
      split
      · rename_i c' on tok hp
        rw [hp] at hb
        dsimp only at hb
        have hL := h.base.loc sid s hs
        have he := hL.running hp
        have hfr := h.free sid s hs he
        have hcc : c ≠ c' := by
          rintro rfl
          exact (hfr.2 _ (List.mem_of_getElem? hp)).2 on tok rfl
        refine h.upd hb hs rfl (hL.notOver he) (get?_erase_ne _ hcc) ?_
        intro _
        refine ⟨he, hfr.1, ?_⟩
        intro p hpm
        rcases List.mem_append.mp hpm with hpm | hpm
        · exact .inl (mem_eraseIdx hpm)
        · rw [List.mem_singleton] at hpm
          subst hpm
          refine .inr ⟨?_, by intro on tok e; cases e⟩
          intro t e
          cases e
          exact hcc rfl
      · exact h
  | goOn sid i r =>
    simp only [Mgr.step] at hb ⊢
    split
    · exact h
    · rename_i s hs
      rw [hs] at hb
      dsimp only at hb
      split
      · rename_i c' o hp
        rw [hp] at hb
        dsimp only at hb
        have hL := h.base.loc sid s hs
        have he := hL.running hp
        have hfr := h.free sid s hs he
        have hcc : c' ≠ c := by
          rintro rfl
          exact (hfr.2 _ (List.mem_of_getElem? hp)).1 o rfl
        unfold Mgr.goOn at hb ⊢
        cases r with
        | valid =>
          dsimp only at hb ⊢
          split
          · rename_i hrc
            rw [if_pos hrc] at hb
            exact h.upd hb hs rfl (hL.notOver he) rfl (fun e => by cases e)
          · rename_i hrc
            rw [if_neg hrc] at hb
            refine h.upd hb hs rfl (hL.notOver he) rfl ?_
            intro _
            refine ⟨he, ?_, fun p hpm => .inl (mem_eraseIdx hpm)⟩
            intro e
            exact hcc (Option.some.inj e)
        | invalid => exact h.upd hb hs rfl (hL.notOver he) rfl (fun e => by cases e)
        | error => exact h.upd hb hs rfl (hL.notOver he) rfl (fun e => by cases e)
      · exact h
  | connect sid =>
    simp only [Mgr.step] at hb ⊢
    split
    · exact h
    · rename_i s hs
      rw [hs] at hb
      dsimp only at hb
      split
      · exact h
      · rename_i c' hr
        rw [hr] at hb
        dsimp only at hb
        split
        · exact h
        · rename_i hg
          rw [if_neg hg] at hb
          have he : s.ended = false := by
            cases he : s.ended with
            | false => rfl
            | true => exact absurd (Or.inl he) hg
          have hL := h.base.loc sid s hs
          have hfr := h.free sid s hs he
          have hcc : c ≠ c' := by
            rintro rfl
            exact hfr.1 hr
          unfold Mgr.upgrade at hb ⊢
          split
          · rename_i hn
            rw [hn] at hb
            exact h.upd hb hs rfl (hL.notOver he) rfl (fun e => by cases e)
          · rename_i i hn
            rw [hn] at hb
            refine h.upd hb hs rfl (hL.notOver he) (get?_insert_ne _ _ hcc) ?_
            intro _
            refine ⟨he, hfr.1, ?_⟩
            intro p hpm
            rcases List.mem_append.mp hpm with hpm | hpm
            · exact .inl hpm
            · rw [List.mem_singleton] at hpm
              subst hpm
              exact .inr ⟨(by intro t e; cases e), (by intro on tok e; cases e)⟩
  | connected sid i ok =>
    simp only [Mgr.step] at hb ⊢
    split
    · exact h
    · rename_i s hs
      rw [hs] at hb
      dsimp only at hb
      split
      · rename_i c' hp
        rw [hp] at hb
        dsimp only at hb
        have hL := h.base.loc sid s hs
        have he := hL.running hp
        split
        · rename_i hok
          rw [if_pos hok] at hb
          exact h.upd hb hs rfl (hL.notOver he) rfl (fun _ => ⟨he, (h.free sid s hs he).1, fun p hpm => .inl (mem_eraseIdx hpm)⟩)
        · rename_i hok
          rw [if_neg hok] at hb
          exact h.upd hb hs rfl (hL.notOver he) rfl (fun e => by cases e)
      · exact h
  | disc sid =>
    simp only [Mgr.step] at hb ⊢
    split
    · exact h
    · rename_i s hs
      rw [hs] at hb
      dsimp only at hb
      split
      · exact h
      · rename_i hg
        rw [if_neg hg] at hb
        have hov : s.over = false := by
          cases e : s.over with
          | false => rfl
          | true => exact absurd e hg
        exact h.upd hb hs rfl hov rfl (fun e => ⟨e, (h.free sid s hs e).1, fun p hpm => .inl hpm⟩)
  | reset sid =>
    simp only [Mgr.step] at hb ⊢
    split
    · exact h
    · rename_i s hs
      rw [hs] at hb
      dsimp only at hb
      split
      · exact h
      · rename_i hg
        rw [if_neg hg] at hb
        have he : s.ended = false := by
          cases e : s.ended with
          | false => rfl
          | true => exact absurd e hg
        exact h.upd hb hs rfl ((h.base.loc sid s hs).notOver he) rfl
          (fun e => ⟨e, (h.free sid s hs e).1, fun p hpm => .inl hpm⟩)
  | failure sid =>
    simp only [Mgr.step] at hb ⊢
    split
    · exact h
    · rename_i s hs
      rw [hs] at hb
      dsimp only at hb
      split
      · exact h
      · rename_i hg
        rw [if_neg hg] at hb
        have he : s.ended = false := by
          cases e : s.ended with
          | false => rfl
          | true => exact absurd (Or.inl e) hg
        exact h.upd hb hs rfl ((h.base.loc sid s hs).notOver he) rfl (fun e => by cases e)
  | regFail sid =>
    simp only [Mgr.step] at hb ⊢
    split
    · exact h
    · rename_i s hs
      rw [hs] at hb
      dsimp only at hb
      split
      · exact h
      · rename_i hg
        rw [if_neg hg] at hb
        refine ⟨hb, ?_, ?_, h.over, h.st, h.listener, ?_⟩
        · rw [clearProv_online]
          exact h.online
        · rw [clearProv_sess]
          exact h.sess
        · rw [clearProv_sess]
          exact h.free
  | finish sid panic =>
    cases hs : m.sess[sid]? with
    | none =>
      have : m.step (.finish sid panic) = m := by
        simp only [Mgr.step]
        rw [hs]
      rw [this]
      exact h
    | some s =>
      cases ho : s.over with
      | true =>
        have : m.step (.finish sid panic) = m := by
          simp only [Mgr.step]
          rw [hs]
          simp only [ho, if_true]
        rw [this]
        exact h
      | false =>
        rw [finish_eq hs ho] at hb ⊢
        obtain ⟨-, -, -, r4⟩ := cleared_rest m sid s panic
        refine h.upd hb hs (s' := s.gone) (by rw [← cleared_sess m sid s panic]; rfl) ho ?_ (fun e => by cases e)
        rcases r4 c with r | ⟨r, -⟩
        · exact r
        · obtain rfl := Option.some.inj (h.online.symm.trans r)
          obtain rfl : x = s := Option.some.inj (h.sess.symm.trans hs)
          rw [h.over] at ho
          cases ho
  | tick n => exact ⟨hb, h.online, h.sess, h.over, h.st, h.listener, h.free⟩

theorem Locked.later {m m' : Mgr} {c : Cid} {z : Nat} {x : Sess} (h : Locked m c z x) (hl : Later m m') :
    Locked m' c z x := by
  induction hl with
  | refl => exact h
  | step _ ha ih => exact ih.step ha

theorem Locked.nobody {m : Mgr} {c : Cid} {z : Nat} {x : Sess} (h : Locked m c z x) (i : Nat) : ¬ m.ConnectedAs i c := by
  rintro ⟨s, hs, he, hst, hcid⟩
  have hL := h.base.loc i s hs
  have hr := hL.conn (hL.st hst he)
  cases e : s.rcid with
  | none => exact hr e
  | some c' =>
    obtain rfl := Option.some.inj (hcid.symm.trans (hL.cid he c' e))
    exact (h.free i s hs he).1 e

end Verif.Sessions

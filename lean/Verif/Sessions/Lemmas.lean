import Verif.Sessions.Spec
/-!
Invariants of the session manager in all executions.
-/
namespace Verif.Sessions
open AMap

theorem get_set {l : List Sess} {sid : Nat} {s s' : Sess} (h : l[sid]? = some s) (j : Nat) :
    (l.set sid s')[j]? = if j = sid then some s' else l[j]? := by
  have hlt : sid < l.length := (List.getElem?_eq_some_iff.mp h).1
  rw [List.getElem?_set]
  by_cases hj : j = sid
  · subst hj
    rw [if_pos rfl, if_pos rfl, if_pos hlt]
  · rw [if_neg (fun e => hj e.symm), if_neg hj]

theorem get_set_self {l : List Sess} {sid : Nat} {s s' : Sess} (h : l[sid]? = some s) :
    (l.set sid s')[sid]? = some s' := by
  rw [get_set h, if_pos rfl]

theorem get?_filter {κ α : Type} [DecidableEq κ] {m : AMap κ α} (hn : NodupKeys m) (p : κ × α → Bool) (x : κ) :
    get? (m.filter p) x = (get? m x).filter (fun a => p (x, a)) := by
  induction m with
  | nil => rfl
  | cons e m ih =>
    obtain ⟨k, a⟩ := e
    have hn' : NodupKeys m := (List.nodup_cons.mp hn).2
    have hk : k ∉ keys m := (List.nodup_cons.mp hn).1
    have ih := ih hn'
    by_cases hx : k = x
    · subst hx
      have hnone : get? m k = none := (get?_eq_none_iff m k).mpr hk
      rw [hnone] at ih
      rw [get?_cons]
      by_cases hp : p (k, a) = true
      · rw [List.filter_cons_of_pos hp, get?_cons]
        simp [hp, Option.filter]
      · rw [List.filter_cons_of_neg hp, ih]
        simp [hp, Option.filter]
    · rw [get?_cons]
      by_cases hp : p (k, a) = true
      · rw [List.filter_cons_of_pos hp, get?_cons]
        simp only [hx, if_false]
        simpa [hx] using ih
      · rw [List.filter_cons_of_neg hp]
        simpa [hx] using ih

theorem nodup_filter {κ α : Type} [DecidableEq κ] {m : AMap κ α} (hn : NodupKeys m) (p : κ × α → Bool) :
    NodupKeys (m.filter p) :=
  List.Nodup.sublist (List.Sublist.map _ List.filter_sublist) hn

theorem sub_filter {κ α : Type} [DecidableEq κ] {m : AMap κ α} (hn : NodupKeys m) {p : κ × α → Bool} {x : κ} {a : α}
    (h : get? (m.filter p) x = some a) : get? m x = some a ∧ p (x, a) = true := by
  rw [get?_filter hn] at h
  obtain ⟨h1, h2⟩ := Option.filter_eq_some_iff.mp h
  exact ⟨h1, h2⟩

theorem sub_erase {κ α : Type} [DecidableEq κ] {m : AMap κ α} {x y : κ} {a : α}
    (h : get? (erase m x) y = some a) : get? m y = some a ∧ y ≠ x := by
  rw [get?_erase] at h
  by_cases hy : y = x
  · rw [if_pos hy] at h
    exact absurd h (by simp)
  · rw [if_neg hy] at h
    exact ⟨h, hy⟩

/-- Of one session. -/
structure Loc (s : Sess) : Prop where
  over : s.over = true → s.ended = true
  ended : s.ended = true → s.pend = []
  cid : s.ended = false → ∀ c, s.rcid = some c → s.cid = some c
  pend : ∀ c, .conn c ∈ s.pend → s.rcid = some c ∧ s.conn = true
  st : s.st = .connected → s.ended = false → s.conn = true
  conn : s.conn = true → s.rcid ≠ none

structure Base (m : Mgr) : Prop where
  loc : ∀ (i : Nat) (s : Sess), m.sess[i]? = some s → Loc s
  addr : ∀ (i j : Nat) (si sj : Sess), m.sess[i]? = some si → m.sess[j]? = some sj → si.over = false → sj.over = false →
    si.addr = sj.addr → i = j
  prov : ∀ (a i : Nat), m.prov.get? a = some i →
    ∃ s, m.sess[i]? = some s ∧ s.addr = a ∧ s.over = false ∧ s.conn = false
  nprov : NodupKeys m.prov
  nresv : NodupKeys m.resv

theorem Base.init : Base Mgr.init where
  loc i s h := by simp [Mgr.init] at h
  addr i j si sj h := by simp [Mgr.init] at h
  prov a i h := by simp [Mgr.init] at h
  nprov := nodupKeys_nil
  nresv := nodupKeys_nil

theorem Base.upd {m m' : Mgr} (h : Base m) {sid : Nat} {s s' : Sess} (hs : m.sess[sid]? = some s)
    (hs' : m'.sess = m.sess.set sid s') (ha : s'.addr = s.addr) (hl : Loc s')
    (ho : s'.over = false → s.over = false)
    (hp : ∀ a i, m'.prov.get? a = some i → m.prov.get? a = some i ∧
      (i = sid → s'.over = false ∧ s'.conn = false))
    (hn : NodupKeys m'.prov) (hr : NodupKeys m'.resv) : Base m' where
  loc i x hx := by
    rw [hs', get_set hs] at hx
    split at hx
    · obtain rfl := Option.some.inj hx
      exact hl
    · exact h.loc i x hx
  addr i j si sj hi hj oi oj e := by
    rw [hs', get_set hs] at hi hj
    split at hi
    · rename_i hi'
      obtain rfl := Option.some.inj hi
      split at hj
      · rename_i hj'
        rw [hi', hj']
      · rw [hi']
        exact h.addr sid j s sj hs hj (ho oi) oj (ha ▸ e)
    · split at hj
      · rename_i hj'
        obtain rfl := Option.some.inj hj
        rw [hj']
        exact h.addr i sid si s hi hs oi (ho oj) (e.trans ha)
      · exact h.addr i j si sj hi hj oi oj e
  prov a i hi := by
    obtain ⟨h1, h2⟩ := hp a i hi
    obtain ⟨x, hx, ea, eo, ec⟩ := h.prov a i h1
    by_cases e : i = sid
    · subst e
      obtain rfl : s = x := Option.some.inj (hs.symm.trans hx)
      exact ⟨s', by rw [hs', get_set hs, if_pos rfl], ha.trans ea, (h2 rfl).1, (h2 rfl).2⟩
    · exact ⟨x, by rw [hs', get_set hs, if_neg e]; exact hx, ea, eo, ec⟩
  nprov := hn
  nresv := hr

/-- Only the session changes. -/
theorem Base.set {m : Mgr} (h : Base m) {sid : Nat} {s s' : Sess} (hs : m.sess[sid]? = some s)
    (ha : s'.addr = s.addr) (hl : Loc s') (ho : s'.over = s.over) (hc : s'.conn = s.conn) : Base (m.set sid s') := by
  refine h.upd hs rfl ha hl (fun e => ho ▸ e) ?_ h.nprov h.nresv
  intro a i hi
  refine ⟨hi, ?_⟩
  rintro rfl
  obtain ⟨x, hx, -, eo, ec⟩ := h.prov a i hi
  obtain rfl : s = x := Option.some.inj (hs.symm.trans hx)
  exact ⟨ho ▸ eo, hc ▸ ec⟩

theorem Base.resv {m : Mgr} (h : Base m) {r : AMap Cid Nat} (hr : NodupKeys r) : Base { m with resv := r } :=
  ⟨h.loc, h.addr, h.prov, h.nprov, hr⟩

theorem Base.other {m : Mgr} (h : Base m) {o x : AMap Cid Nat} {n k : Nat} :
    Base { m with online := o, crypto := x, now := n, nextTok := k } :=
  ⟨h.loc, h.addr, h.prov, h.nprov, h.nresv⟩

theorem Loc.halt {s : Sess} (h : Loc s) : Loc s.halt where
  over _ := rfl
  ended _ := rfl
  cid e := by cases e
  pend c hc := by cases hc
  st _ e := by cases e
  conn := h.conn

theorem Loc.panic {s : Sess} (h : Loc s) : Loc s.panic where
  over _ := rfl
  ended _ := rfl
  cid e := by cases e
  pend c hc := by cases hc
  st _ e := by cases e
  conn := h.conn

theorem Loc.gone {s : Sess} (h : Loc s) : Loc s.gone where
  over _ := rfl
  ended _ := rfl
  cid e := by cases e
  pend c hc := by cases hc
  st _ e := by cases e
  conn := h.conn

theorem Loc.suspend {s : Sess} (h : Loc s) (hl : s.ended = false) {p : Pend}
    (hp : ∀ c, p = .conn c → s.rcid = some c ∧ s.conn = true) : Loc (s.suspend p) where
  over := h.over
  ended e := by
    have : s.ended = true := e
    rw [hl] at this
    cases this
  cid := h.cid
  pend c hc := by
    rcases List.mem_append.mp hc with hc | hc
    · exact h.pend c hc
    · rw [List.mem_singleton] at hc
      exact hp c hc.symm
  st := h.st
  conn := h.conn

theorem mem_eraseIdx {α : Type} {l : List α} {i : Nat} {a : α} (h : a ∈ l.eraseIdx i) : a ∈ l :=
  (List.eraseIdx_sublist l i).subset h

/-- A session with a continuation has not ended. -/
theorem Loc.running {s : Sess} (h : Loc s) {i : Nat} {p : Pend} (hp : s.pend[i]? = some p) : s.ended = false := by
  cases he : s.ended with
  | false => rfl
  | true =>
    rw [h.ended he] at hp
    cases hp

theorem Loc.rest {s : Sess} (h : Loc s) {i : Nat} : Loc { s with pend := s.pend.eraseIdx i } where
  over := h.over
  ended e := by
    show s.pend.eraseIdx i = []
    rw [h.ended e]
    rfl
  cid := h.cid
  pend c hc := h.pend c (mem_eraseIdx hc)
  st := h.st
  conn := h.conn

theorem Base.goOn {m : Mgr} (h : Base m) {sid : Nat} {s : Sess} {i : Nat} (hs : m.sess[sid]? = some s)
    (c : Cid) (r : Answer) : Base (m.goOn sid { s with pend := s.pend.eraseIdx i } c r) := by
  have hL := h.loc sid s hs
  have hLr : Loc { s with pend := s.pend.eraseIdx i } := hL.rest
  unfold Mgr.goOn
  cases r with
  | valid =>
    dsimp only
    split
    · exact (h.other (o := m.online) (n := m.now) (k := m.nextTok)).set (s := s) hs rfl hLr.panic rfl rfl
    · rename_i hn
      have hn : s.rcid = none := by
        cases e : s.rcid with
        | none => rfl
        | some x => exact absurd (by simp [e]) hn
      have h1 : Base { m with crypto := m.crypto.insert c sid, resv := m.resv.erase c } :=
        ⟨h.loc, h.addr, h.prov, h.nprov, nodupKeys_erase h.nresv c⟩
      refine h1.set (s := s) hs rfl ?_ rfl rfl
      refine ⟨hL.over, hLr.ended, fun _ c' e => e, fun c' hc => ?_, hL.st, fun hc => absurd hn (hL.conn hc)⟩
      have := hL.pend c' (mem_eraseIdx hc)
      rw [hn] at this
      cases this.1
  | invalid => exact (h.resv (nodupKeys_erase h.nresv c)).set (s := s) hs rfl hLr.halt rfl rfl
  | error => exact h.set hs rfl hLr.halt rfl rfl

theorem Base.syn {m : Mgr} (h : Base m) {sid : Nat} {s : Sess} (hs : m.sess[sid]? = some s) (hl : s.ended = false)
    (hst : s.st = .provisional) (c : Cid) (k : Nat) : Base (m.syn sid s c k) := by
  have hL := h.loc sid s hs
  have hf : Base { m with resv := m.fresh } := h.resv (nodup_filter h.nresv _)
  unfold Mgr.syn
  dsimp only
  split
  · rename_i i _
    split
    · exact hf
    · rename_i x hx
      split
      · exact hf.set hs rfl hL.halt rfl rfl
      · split
        · exact hf.set hs rfl hL.halt rfl rfl
        · rename_i hd hli
          have hne : sid ≠ i := by
            rintro rfl
            obtain rfl : s = x := Option.some.inj (hs.symm.trans hx)
            rw [hst] at hd
            exact hd (by simp)
          have hLx : Loc x := hf.loc i x hx
          have h1 : Base ({ m with resv := m.fresh }.set i { x with listener := some m.nextTok }) :=
            hf.set hx rfl ⟨hLx.over, hLx.ended, hLx.cid, hLx.pend, hLx.st, hLx.conn⟩ rfl rfl
          refine (h1.other (o := m.online) (x := m.crypto) (n := m.now) (k := m.nextTok + 1)).set (s := s) ?_ rfl
            (hL.suspend hl (by intro c' e; cases e)) rfl rfl
          show (m.sess.set i _)[sid]? = some s
          rw [get_set hx, if_neg hne]
          exact hs
  · split
    · exact hf.set hs rfl hL.halt rfl rfl
    · exact (h.resv (nodupKeys_insert (nodup_filter h.nresv _) c m.now)).set (s := s) hs rfl
        (hL.suspend hl (by intro c' e; cases e)) rfl rfl

theorem prov_sub_clear {m : Mgr} {sid addr a i : Nat} (h : (m.clearProv sid addr).prov.get? a = some i) :
    m.prov.get? a = some i := by
  unfold Mgr.clearProv at h
  split at h
  · exact (sub_erase h).1
  · exact h

theorem clearProv_ne {m : Mgr} (hb : Base m) {sid a : Nat} {s : Sess} (hs : m.sess[sid]? = some s)
    (h : (m.clearProv sid s.addr).prov.get? a = some sid) : False := by
  have h1 := prov_sub_clear h
  obtain ⟨x, hx, ea, -, -⟩ := hb.prov a sid h1
  obtain rfl : s = x := Option.some.inj (hs.symm.trans hx)
  subst ea
  unfold Mgr.clearProv at h
  rw [if_pos h1] at h
  simp at h

theorem clearSession_prov (m : Mgr) (sid : Nat) (c : Cid) : (m.clearSession sid c).prov = m.prov := by
  unfold Mgr.clearSession
  split <;> rfl

theorem clearSession_sess (m : Mgr) (sid : Nat) (c : Cid) : (m.clearSession sid c).sess = m.sess := by
  unfold Mgr.clearSession
  split <;> rfl

theorem clearProv_sess (m : Mgr) (sid addr : Nat) : (m.clearProv sid addr).sess = m.sess := by
  unfold Mgr.clearProv
  split <;> rfl

theorem Base.clearProv {m : Mgr} (h : Base m) (sid addr : Nat) : Base (m.clearProv sid addr) := by
  unfold Mgr.clearProv
  split
  · exact ⟨h.loc, h.addr, fun a i hi => h.prov a i (sub_erase hi).1, nodupKeys_erase h.nprov _, h.nresv⟩
  · exact h

theorem Base.clearSession {m : Mgr} (h : Base m) (sid : Nat) (c : Cid) : Base (m.clearSession sid c) := by
  unfold Mgr.clearSession
  split
  · exact ⟨h.loc, h.addr, h.prov, h.nprov, h.nresv⟩
  · exact h

/-- The session that is found under the address of a session is that session. -/
theorem Base.own {m : Mgr} (h : Base m) {sid i : Nat} {s : Sess} (hs : m.sess[sid]? = some s) (hl : s.ended = false)
    (hp : m.prov.get? s.addr = some i) : i = sid := by
  obtain ⟨x, hx, ea, eo, -⟩ := h.prov _ _ hp
  refine h.addr i sid x s hx hs eo ?_ ea
  cases ho : s.over with
  | false => rfl
  | true =>
    rw [(h.loc sid s hs).over ho] at hl
    cases hl

/-- What is done to `sessions` when a session ends. -/
def Mgr.clearOnline (m : Mgr) (sid : Nat) (s : Sess) (panic : Bool) : Mgr :=
  match s.cid, panic with
  | some c, false => m.clearSession sid c
  | _, _ => m

/-- What is done to the maps when a session ends. -/
def Mgr.cleared (m : Mgr) (sid : Nat) (s : Sess) (panic : Bool) : Mgr :=
  (m.clearOnline sid s panic).clearProv sid s.addr

theorem clearOnline_sess (m : Mgr) (sid : Nat) (s : Sess) (panic : Bool) : (m.clearOnline sid s panic).sess = m.sess := by
  unfold Mgr.clearOnline
  split
  · rw [clearSession_sess]
  · rfl

theorem clearOnline_prov (m : Mgr) (sid : Nat) (s : Sess) (panic : Bool) : (m.clearOnline sid s panic).prov = m.prov := by
  unfold Mgr.clearOnline
  split
  · rw [clearSession_prov]
  · rfl

theorem Base.clearOnline {m : Mgr} (h : Base m) (sid : Nat) (s : Sess) (panic : Bool) :
    Base (m.clearOnline sid s panic) := by
  unfold Mgr.clearOnline
  split
  · exact h.clearSession _ _
  · exact h

theorem cleared_sess (m : Mgr) (sid : Nat) (s : Sess) (panic : Bool) : (m.cleared sid s panic).sess = m.sess := by
  unfold Mgr.cleared
  rw [clearProv_sess, clearOnline_sess]

theorem cleared_prov {m : Mgr} (hb : Base m) {sid a i : Nat} {s : Sess} {panic : Bool} (hs : m.sess[sid]? = some s)
    (h : (m.cleared sid s panic).prov.get? a = some i) : m.prov.get? a = some i ∧ i ≠ sid := by
  unfold Mgr.cleared at h
  have h1 := prov_sub_clear h
  rw [clearOnline_prov] at h1
  refine ⟨h1, ?_⟩
  rintro rfl
  exact clearProv_ne (hb.clearOnline i s panic) (by rw [clearOnline_sess]; exact hs) h

theorem Base.cleared {m : Mgr} (h : Base m) (sid : Nat) (s : Sess) (panic : Bool) : Base (m.cleared sid s panic) :=
  (h.clearOnline sid s panic).clearProv sid s.addr

theorem finish_eq {m : Mgr} {sid : Nat} {s : Sess} {panic : Bool} (hs : m.sess[sid]? = some s) (ho : s.over = false) :
    m.step (.finish sid panic) = (m.cleared sid s panic).set sid s.gone := by
  have : m.step (.finish sid panic) = match m.sess[sid]? with
    | none => m
    | some s => if s.over then m else (m.cleared sid s panic).set sid s.gone := rfl
  rw [this, hs]
  simp [ho]

theorem Base.step {m : Mgr} (h : Base m) {ev : Ev} (ha : m.Allowed ev) : Base (m.step ev) := by
  cases ev with
  | accept addr =>
    have hnew : ∀ (i : Nat) (s : Sess), (m.sess ++ [({ addr := addr } : Sess)])[i]? = some s →
        m.sess[i]? = some s ∨ (i = m.sess.length ∧ s = { addr := addr }) := by
      intro i s hi
      rw [List.getElem?_append] at hi
      split at hi
      · exact .inl hi
      · rename_i hge
        have : i - m.sess.length = 0 := by
          cases hd : i - m.sess.length with
          | zero => rfl
          | succ n =>
            rw [hd] at hi
            cases hi
        rw [this] at hi
        exact .inr ⟨by omega, (Option.some.inj hi).symm⟩
    refine ⟨?_, ?_, ?_, nodupKeys_insert h.nprov _ _, h.nresv⟩
    · intro i s hi
      rcases hnew i s hi with hi | ⟨-, rfl⟩
      · exact h.loc i s hi
      · exact ⟨by simp, by simp, by simp, by simp, by simp, by simp⟩
    · intro i j si sj hi hj oi oj e
      rcases hnew i si hi with hi | ⟨rfl, rfl⟩
      · rcases hnew j sj hj with hj | ⟨rfl, rfl⟩
        · exact h.addr i j si sj hi hj oi oj e
        · exact absurd e (ha si (List.mem_of_getElem? hi) oi)
      · rcases hnew j sj hj with hj | ⟨rfl, rfl⟩
        · exact absurd e.symm (ha sj (List.mem_of_getElem? hj) oj)
        · rfl
    · intro a i hi
      have hi : (m.prov.insert addr m.sess.length).get? a = some i := hi
      rw [get?_insert] at hi
      split at hi
      · rename_i he
        obtain rfl := Option.some.inj hi
        exact ⟨{ addr := addr }, by simp [Mgr.step], he.symm, rfl, rfl⟩
      · obtain ⟨s, hs, r⟩ := h.prov a i hi
        refine ⟨s, ?_, r⟩
        show (m.sess ++ _)[i]? = some s
        rw [List.getElem?_append_left (List.getElem?_eq_some_iff.mp hs).1]
        exact hs
  | syn sid c k =>
    unfold Mgr.step
    dsimp only
    split
    · exact h
    · rename_i s hs
      split
      · exact h
      · rename_i hg
        refine h.syn hs ?_ ?_ c k
        · cases he : s.ended with
          | false => rfl
          | true => exact absurd (Or.inl he) hg
        · exact Decidable.byContradiction fun e => hg (Or.inr e)
  | wake sid i =>
    unfold Mgr.step
    dsimp only
    split
    · exact h
    · rename_i s hs
      split
      · rename_i c _ _ hp
        have hL := h.loc sid s hs
        exact h.set hs rfl ((hL.rest (i := i)).suspend (hL.running hp) (p := .syn c none) (by intro c' e; cases e)) rfl rfl
      · exact h
  | timeout sid i =>
    unfold Mgr.step
    dsimp only
    split
    · exact h
    · rename_i s hs
      split
      · rename_i c _ _ hp
        have hL := h.loc sid s hs
        have h1 : Base { m with online := m.online.erase c, prov := m.keepProv c, resv := m.resv.erase c } :=
          ⟨h.loc, h.addr, fun a i hi => h.prov a i (sub_filter h.nprov hi).1, nodup_filter h.nprov _,
            nodupKeys_erase h.nresv _⟩
        exact h1.set (s := s) hs rfl
          ((hL.rest (i := i)).suspend (hL.running hp) (p := .syn c none) (by intro c' e; cases e)) rfl rfl
      · exact h
  | goOn sid i r =>
    unfold Mgr.step
    dsimp only
    split
    · exact h
    · rename_i s hs
      split
      · exact h.goOn hs _ r
      · exact h
  | connect sid =>
    unfold Mgr.step
    dsimp only
    split
    · exact h
    · rename_i s hs
      split
      · exact h
      · rename_i c hr
        split
        · exact h
        · rename_i hg
          have hL := h.loc sid s hs
          have he : s.ended = false := by
            cases he : s.ended with
            | false => rfl
            | true => exact absurd (Or.inl he) hg
          unfold Mgr.upgrade
          split
          · exact h.set hs rfl hL.halt rfl rfl
          · rename_i i hp
            have hi := h.own hs he hp
            subst hi
            have hL' : Loc { s with conn := true } :=
              ⟨hL.over, hL.ended, hL.cid, fun c' hc => ⟨(hL.pend c' hc).1, rfl⟩, fun _ _ => rfl, fun _ => by
                show s.rcid ≠ none
                rw [hr]
                simp⟩
            refine h.upd hs rfl rfl (hL'.suspend he ?_) id ?_ (nodupKeys_erase h.nprov _) h.nresv
            · rintro c' e
              cases e
              exact ⟨hr, rfl⟩
            · intro a j hj
              have hj : (m.prov.erase s.addr).get? a = some j := hj
              obtain ⟨h1, h2⟩ := sub_erase hj
              refine ⟨h1, ?_⟩
              rintro rfl
              obtain ⟨x, hx, ea, -, -⟩ := h.prov a j h1
              obtain rfl : s = x := Option.some.inj (hs.symm.trans hx)
              exact absurd ea.symm h2
  | connected sid i ok =>
    unfold Mgr.step
    dsimp only
    split
    · exact h
    · rename_i s hs
      have hL := h.loc sid s hs
      split
      · rename_i c hp
        have hc := hL.pend c (List.mem_of_getElem? hp)
        split
        · refine h.set hs rfl ⟨hL.over, hL.rest.ended, fun _ c' e => ?_, hL.rest.pend, fun _ _ => hc.2, hL.conn⟩ rfl rfl
          exact hc.1.symm.trans e
        · exact h.set hs rfl hL.halt rfl rfl
      · exact h
  | disc sid =>
    unfold Mgr.step
    dsimp only
    split
    · exact h
    · rename_i s hs
      have hL := h.loc sid s hs
      split
      · exact h
      · exact h.set hs rfl ⟨hL.over, hL.ended, hL.cid, hL.pend, (fun e => by cases e), hL.conn⟩ rfl rfl
  | reset sid =>
    unfold Mgr.step
    dsimp only
    split
    · exact h
    · rename_i s hs
      have hL := h.loc sid s hs
      split
      · exact h
      · exact h.set hs rfl ⟨hL.over, hL.ended, hL.cid, hL.pend, (fun e => by cases e), hL.conn⟩ rfl rfl
  | failure sid =>
    unfold Mgr.step
    dsimp only
    split
    · exact h
    · rename_i s hs
      have hL := h.loc sid s hs
      split
      · exact h
      · exact h.set hs rfl ⟨fun _ => rfl, fun _ => rfl, (fun e => by cases e), (fun _ hc => by cases hc),
          (fun _ e => by cases e), hL.conn⟩ rfl rfl
  | regFail sid =>
    unfold Mgr.step
    dsimp only
    split
    · exact h
    · split
      · exact h
      · exact h.clearProv _ _
  | finish sid panic =>
    cases hs : m.sess[sid]? with
    | none =>
      have : m.step (.finish sid panic) = m := by
        simp only [Mgr.step]
        rw [hs]
      rw [this]
      exact h
    | some s =>
      cases ho : s.over with
      | true =>
        have : m.step (.finish sid panic) = m := by
          simp only [Mgr.step]
          rw [hs]
          simp only [ho, if_true]
        rw [this]
        exact h
      | false =>
        rw [finish_eq hs ho]
        have hc := h.cleared sid s panic
        refine h.upd (s' := s.gone) hs (by rw [← cleared_sess m sid s panic]; rfl) rfl (h.loc sid s hs).gone (fun e => by cases e) ?_
          hc.nprov hc.nresv
        intro a i hi
        obtain ⟨h1, h2⟩ := cleared_prov h hs hi
        exact ⟨h1, fun e => absurd e h2⟩
  | tick n => exact ⟨h.loc, h.addr, h.prov, h.nprov, h.nresv⟩

theorem Run.base {evs : List Ev} {m : Mgr} (h : Run evs m) : Base m := by
  induction h with
  | init => exact Base.init
  | step _ ha ih => exact ih.step ha

theorem RunWith.run {P : Mgr → Ev → Prop} {evs : List Ev} {m : Mgr} (h : RunWith P evs m) : Run evs m := by
  induction h with
  | init => exact .init
  | step _ ha _ ih => exact ih.step ha

end Verif.Sessions

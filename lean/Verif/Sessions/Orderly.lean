import Verif.Sessions.Clean
/-!
Invariants of executions that are orderly for an account.
-/
namespace Verif.Sessions
open AMap

/-- An attempt to connect as `c` that may go on. -/
def Claim (now : Nat) (c : Cid) (p : Pend) : Prop :=
  (∃ on tok, p = .wait c on tok) ∨ p = .syn c none ∨ ∃ t, p = .syn c (some t) ∧ now < t + ttl

/-- Session `j` is found under the CID. -/
def Shows (m : Mgr) (c : Cid) (j : Nat) : Prop :=
  m.online.get? c = some j ∨ ∃ a s, m.prov.get? a = some j ∧ m.sess[j]? = some s ∧ s.cid = some c

def Sep (now : Nat) (c : Cid) (p q : Pend) : Prop := Claim now c p → Claim now c q → False

theorem Sep.symm {now : Nat} {c : Cid} {p q : Pend} (h : Sep now c p q) : Sep now c q p := fun a b => h b a

structure OInv (m : Mgr) (c : Cid) : Prop where
  base : Base m
  fresh : ∀ (i : Nat), m.online.get? c = some i →
    ∃ s, m.sess[i]? = some s ∧ s.over = false ∧ s.cid = some c ∧ s.conn = true ∧ s.rcid = some c
  one : ∀ (i j : Nat) (si sj : Sess) (p q : Pend), m.sess[i]? = some si → m.sess[j]? = some sj → p ∈ si.pend → q ∈ sj.pend →
    Claim m.now c p → Claim m.now c q → i = j
  pair : ∀ (i : Nat) (s : Sess), m.sess[i]? = some s → s.pend.Pairwise (Sep m.now c)
  resvd : ∀ (i : Nat) (s : Sess) (t : Nat), m.sess[i]? = some s → .syn c (some t) ∈ s.pend → m.now < t + ttl →
    m.resv.get? c = some t ∧ ∀ j, ¬ Shows m c j
  woken : ∀ (i : Nat) (s : Sess), m.sess[i]? = some s → .syn c none ∈ s.pend → ∀ j, ¬ Shows m c j
  wait : ∀ (i on tok : Nat) (s : Sess), m.sess[i]? = some s → .wait c on tok ∈ s.pend →
    ∃ x, m.sess[on]? = some x ∧ (x.over = true ∨ x.listener = some tok) ∧ ∀ j, Shows m c j → j = on
  shows : ∀ i j, Shows m c i → Shows m c j → i = j
  keys : ∀ (i : Nat) (s : Sess), Shows m c i → m.sess[i]? = some s → s.ended = false → s.rcid = some c →
    m.crypto.get? c = some i
  onl : ∀ (i : Nat) (s : Sess), m.sess[i]? = some s → s.ended = false → s.conn = true → s.rcid = some c →
    m.online.get? c = some i

theorem OInv.init (c : Cid) : OInv Mgr.init c where
  base := Base.init
  fresh i h := by simp [Mgr.init] at h
  one i j si sj p q h := by simp [Mgr.init] at h
  pair i s h := by simp [Mgr.init] at h
  resvd i s t h := by simp [Mgr.init] at h
  woken i s h := by simp [Mgr.init] at h
  wait i on tok s h := by simp [Mgr.init] at h
  shows i j h := by
    rcases h with h | ⟨a, s, h, -⟩ <;> simp [Mgr.init] at h
  keys i s _ h := by simp [Mgr.init] at h
  onl i s h := by simp [Mgr.init] at h

/-- A session that is found is not over. -/
theorem OInv.shown {m : Mgr} {c : Cid} (h : OInv m c) {j : Nat} (hj : Shows m c j) :
    ∃ s, m.sess[j]? = some s ∧ s.over = false ∧ s.cid = some c := by
  rcases hj with hj | ⟨a, s, ha, hs, hc⟩
  · obtain ⟨s, hs, ho, hc, -⟩ := h.fresh j hj
    exact ⟨s, hs, ho, hc⟩
  · obtain ⟨x, hx, -, ho, -⟩ := h.base.prov a j ha
    obtain rfl : s = x := Option.some.inj (hs.symm.trans hx)
    exact ⟨s, hs, ho, hc⟩

/-- A session does nothing new for the account, and nothing else gets lost. -/
theorem OInv.less {m m' : Mgr} {c : Cid} (h : OInv m c) (hb : Base m') {sid : Nat} {s s' : Sess} (hs : m.sess[sid]? = some s)
    (hs' : m'.sess = m.sess.set sid s') (hnow : m'.now = m.now)
    (hl : s'.ended = false → s'.rcid = some c → s.ended = false ∧ s.rcid = some c ∧ s'.conn = s.conn)
    (hcid : s'.cid = some c → s.cid = some c)
    (hov : s.over = true → s'.over = true)
    (hli : s'.over = true ∨ ∀ tok, s.listener = some tok → s'.listener = some tok)
    (hp : ∀ p ∈ s'.pend, Claim m.now c p → p ∈ s.pend)
    (hpair : s'.pend.Pairwise (Sep m.now c))
    (hprov : ∀ a i, m'.prov.get? a = some i → m.prov.get? a = some i)
    (hon : ∀ i, m'.online.get? c = some i → m.online.get? c = some i)
    (hon' : ∀ j, m.online.get? c = some j → (j = sid → s'.ended = false) → m'.online.get? c = some j)
    (hfr : m'.online.get? c = some sid → s.over = false → s.cid = some c → s.conn = true → s.rcid = some c →
      s'.over = false ∧ s'.cid = some c ∧ s'.conn = true ∧ s'.rcid = some c)
    (hr : ∀ t, m.resv.get? c = some t → m.now < t + ttl →
      (∃ (i : Nat) (x : Sess), m'.sess[i]? = some x ∧ .syn c (some t) ∈ x.pend) → m'.resv.get? c = some t)
    (hc : m'.crypto.get? c = m.crypto.get? c ∨ ∀ j, ¬ Shows m c j) :
    OInv m' c := by
  have hget : ∀ (i : Nat) (x : Sess), m'.sess[i]? = some x → ∃ y, m.sess[i]? = some y ∧
      (∀ p ∈ x.pend, Claim m.now c p → p ∈ y.pend) ∧ (x.cid = some c → y.cid = some c) ∧
      (x.ended = false → x.rcid = some c → y.ended = false ∧ y.rcid = some c ∧ x.conn = y.conn) ∧
      (i = sid → x = s') := by
    intro i x hx
    rw [hs', get_set hs] at hx
    split at hx
    · rename_i e
      obtain rfl := Option.some.inj hx
      exact ⟨s, e ▸ hs, hp, hcid, hl, fun _ => rfl⟩
    · rename_i e
      exact ⟨x, hx, fun _ a _ => a, id, fun a b => ⟨a, b, rfl⟩, fun e' => absurd e' e⟩
  have hshow : ∀ j, Shows m' c j → Shows m c j := by
    rintro j (hj | ⟨a, x, ha, hx, hxc⟩)
    · exact .inl (hon j hj)
    · obtain ⟨y, hy, -, hyc, -⟩ := hget j x hx
      exact .inr ⟨a, y, hprov a j ha, hy, hyc hxc⟩
  refine ⟨hb, ?_, ?_, ?_, ?_, ?_, ?_, ?_, ?_, ?_⟩
  · intro i hi
    obtain ⟨x, hx, x1, x2, x3, x4⟩ := h.fresh i (hon i hi)
    rw [hs', get_set hs]
    split
    · rename_i e
      subst e
      obtain rfl : s = x := Option.some.inj (hs.symm.trans hx)
      exact ⟨s', rfl, hfr hi x1 x2 x3 x4⟩
    · exact ⟨x, hx, x1, x2, x3, x4⟩
  · intro i j si sj p q hi hj hpi hqj cp cq
    rw [hnow] at cp cq
    obtain ⟨yi, hyi, hsi, -⟩ := hget i si hi
    obtain ⟨yj, hyj, hsj, -⟩ := hget j sj hj
    exact h.one i j yi yj p q hyi hyj (hsi p hpi cp) (hsj q hqj cq) cp cq
  · intro i x hx
    rw [hnow]
    rw [hs', get_set hs] at hx
    split at hx
    · obtain rfl := Option.some.inj hx
      exact hpair
    · exact h.pair i x hx
  · intro i x t hi ht ft
    rw [hnow] at ft
    obtain ⟨y, hy, hsy, -⟩ := hget i x hi
    obtain ⟨h1, h2⟩ := h.resvd i y t hy (hsy _ ht (.inr (.inr ⟨t, rfl, ft⟩))) ft
    exact ⟨hr t h1 ft ⟨i, x, hi, ht⟩, fun j hj => h2 j (hshow j hj)⟩
  · intro i x hi ht j hj
    obtain ⟨y, hy, hsy, -⟩ := hget i x hi
    exact h.woken i y hy (hsy _ ht (.inr (.inl rfl))) j (hshow j hj)
  · intro i on tok x hi ht
    obtain ⟨y, hy, hsy, -⟩ := hget i x hi
    obtain ⟨z, hz, z1, z2⟩ := h.wait i on tok y hy (hsy _ ht (.inl ⟨on, tok, rfl⟩))
    rw [hs', get_set hs]
    split
    · rename_i e
      subst e
      obtain rfl : s = z := Option.some.inj (hs.symm.trans hz)
      refine ⟨s', rfl, ?_, fun j hj => z2 j (hshow j hj)⟩
      rcases z1 with z1 | z1
      · exact .inl (hov z1)
      · rcases hli with hli | hli
        · exact .inl hli
        · exact .inr (hli tok z1)
    · exact ⟨z, hz, z1, fun j hj => z2 j (hshow j hj)⟩
  · intro i j hi hj
    exact h.shows i j (hshow i hi) (hshow j hj)
  · intro i x hsh hi he hrc
    obtain ⟨y, hy, -, -, hly, -⟩ := hget i x hi
    obtain ⟨e1, e2, -⟩ := hly he hrc
    rcases hc with hc | hc
    · rw [hc]
      exact h.keys i y (hshow i hsh) hy e1 e2
    · exact absurd (hshow i hsh) (hc i)
  · intro i x hi he hcn hrc
    obtain ⟨y, hy, -, -, hly, hen⟩ := hget i x hi
    obtain ⟨e1, e2, e3⟩ := hly he hrc
    refine hon' i (h.onl i y hy e1 (e3 ▸ hcn) e2) ?_
    intro e
    rw [← hen e]
    exact he

/-- Only the session changes. -/
theorem OInv.set {m m' : Mgr} {c : Cid} (h : OInv m c) {sid : Nat} {s s' : Sess} (hs : m.sess[sid]? = some s) (hb : Base m')
    (hs' : m'.sess = m.sess.set sid s') (hnow : m'.now = m.now)
    (hon : m'.online.get? c = m.online.get? c) (hprov : ∀ a i, m'.prov.get? a = some i → m.prov.get? a = some i)
    (hr : m'.resv.get? c = m.resv.get? c) (hcr : m'.crypto.get? c = m.crypto.get? c)
    (hl : s'.ended = false → s'.rcid = some c → s.ended = false ∧ s.rcid = some c ∧ s'.conn = s.conn)
    (hk : s'.over = s.over ∧ s'.listener = s.listener) (hcid : s'.cid = some c → s.cid = some c)
    (hfr : s.conn = true → s.rcid = some c → s.cid = some c → s'.cid = some c ∧ s'.conn = true ∧ s'.rcid = some c)
    (hp : ∀ p ∈ s'.pend, Claim m.now c p → p ∈ s.pend)
    (hpair : s'.pend.Pairwise (Sep m.now c)) : OInv m' c :=
  h.less hb hs hs' hnow hl hcid (fun e => hk.1.trans e) (.inr fun _ e => hk.2.trans e) hp hpair hprov
    (fun _ e => hon.symm.trans e) (fun _ e _ => hon.trans e)
    (fun _ h1 h2 h3 h4 => ⟨hk.1.trans h1, hfr h3 h4 h2⟩) (fun _ e _ _ => hr.trans e) (.inl hcr)

/-- The session ends. -/
theorem OInv.halt {m m' : Mgr} {c : Cid} (h : OInv m c) {sid : Nat} {s s' : Sess} (hs : m.sess[sid]? = some s) (hb : Base m')
    (hs' : m'.sess = m.sess.set sid s') (hnow : m'.now = m.now)
    (hon : m'.online = m.online) (hprov : m'.prov = m.prov)
    (hr : ∀ t, m.resv.get? c = some t → m.now < t + ttl →
      (∃ (i : Nat) (x : Sess), m'.sess[i]? = some x ∧ .syn c (some t) ∈ x.pend) → m'.resv.get? c = some t)
    (hcr : m'.crypto.get? c = m.crypto.get? c ∨ ∀ j, ¬ Shows m c j)
    (hk : s'.over = s.over ∧ s'.listener = s.listener ∧ s'.cid = s.cid ∧ s'.conn = s.conn ∧ s'.rcid = s.rcid)
    (he : s'.ended = true) (hp : s'.pend = []) : OInv m' c := by
  obtain ⟨k1, k2, k3, k4, k5⟩ := hk
  refine h.less hb hs hs' hnow ?_ (fun e => k3 ▸ e) (fun e => k1.trans e) (.inr fun _ e => k2.trans e) ?_ ?_
    (fun _ _ e => hprov ▸ e) (fun _ e => hon ▸ e) (fun _ e _ => hon ▸ e)
    (fun _ h1 h2 h3 h4 => ⟨k1.trans h1, k3.trans h2, k4.trans h3, k5.trans h4⟩) hr hcr
  · rw [he]
    intro e
    cases e
  · rw [hp]
    intro p e
    cases e
  · rw [hp]
    exact List.Pairwise.nil

theorem find_some {m : Mgr} {c k j : Nat} (hc : c ≠ 0) (h : m.find c k = some j) :
    m.online.get? c = some j ∨ ∃ a s, (a, j) ∈ m.prov ∧ m.sess[j]? = some s ∧ s.cid = some c := by
  unfold Mgr.find at h
  cases ho : m.online.get? c with
  | some i =>
    rw [ho] at h
    exact .inl h
  | none =>
    right
    rw [ho] at h
    dsimp only at h
    obtain ⟨⟨a, j'⟩, he, rfl⟩ := Option.map_eq_some_iff.mp h
    have hm := List.mem_of_getElem? he
    rw [List.mem_filter] at hm
    obtain ⟨hm, hd⟩ := hm
    dsimp only at hd
    cases hs : m.sess[j']? with
    | none =>
      rw [hs] at hd
      cases hd
    | some s =>
      rw [hs] at hd
      have hd : s.cid.getD 0 = c := of_decide_eq_true hd
      refine ⟨a, s, hm, rfl, ?_⟩
      cases e : s.cid with
      | none =>
        rw [e] at hd
        exact absurd hd.symm hc
      | some x =>
        rw [e] at hd
        exact congrArg some hd

theorem find_shows {m : Mgr} (hb : Base m) {c k j : Nat} (hc : c ≠ 0) (h : m.find c k = some j) : Shows m c j := by
  rcases find_some hc h with h | ⟨a, s, h1, h2, h3⟩
  · exact .inl h
  · exact .inr ⟨a, s, get?_of_mem hb.nprov h1, h2, h3⟩

theorem find_none' {m : Mgr} {c k : Nat} (h : m.find c k = none) (j : Nat) : ¬ Shows m c j := by
  obtain ⟨h1, h2⟩ := find_none h
  rintro (hj | ⟨a, s, ha, hs, hc⟩)
  · rw [h1] at hj
    cases hj
  · refine h2 a j s ha hs ?_
    rw [hc]
    rfl

/-- A new attempt. -/
theorem OInv.claim {m m' : Mgr} {c : Cid} (h : OInv m c) (hb : Base m') {sid : Nat} {s : Sess} {p : Pend}
    (hs : m.sess[sid]? = some s)
    (hno : ∀ (i : Nat) (x : Sess) (q : Pend), m.sess[i]? = some x → q ∈ x.pend → ¬ Claim m.now c q)
    (hs' : m'.sess = m.sess.set sid (s.suspend p)) (hnow : m'.now = m.now) (hon : m'.online = m.online)
    (hprov : m'.prov = m.prov) (hcr : m'.crypto = m.crypto)
    (hres : ∀ t, p = .syn c (some t) → m.now < t + ttl → m'.resv.get? c = some t ∧ ∀ j, ¬ Shows m c j)
    (hwok : p = .syn c none → ∀ j, ¬ Shows m c j)
    (hwait : ∀ on tok, p = .wait c on tok → ∃ x, (m.sess.set sid (s.suspend p))[on]? = some x ∧
      (x.over = true ∨ x.listener = some tok) ∧ ∀ j, Shows m c j → j = on) : OInv m' c := by
  have hget : ∀ (i : Nat) (x : Sess), m'.sess[i]? = some x → ∃ y, m.sess[i]? = some y ∧ x.ended = y.ended ∧ x.rcid = y.rcid ∧
      x.cid = y.cid ∧ x.conn = y.conn ∧ x.over = y.over ∧ (∀ q ∈ x.pend, q ∈ y.pend ∨ (q = p ∧ i = sid)) := by
    intro i x hx
    rw [hs', get_set hs] at hx
    split at hx
    · rename_i e
      obtain rfl := Option.some.inj hx
      refine ⟨s, e ▸ hs, rfl, rfl, rfl, rfl, rfl, ?_⟩
      intro q hq
      rcases List.mem_append.mp hq with hq | hq
      · exact .inl hq
      · exact .inr ⟨List.mem_singleton.mp hq, e⟩
    · exact ⟨x, hx, rfl, rfl, rfl, rfl, rfl, fun _ e => .inl e⟩
  have hcl : ∀ (i : Nat) (x : Sess) (q : Pend), m'.sess[i]? = some x → q ∈ x.pend → Claim m.now c q → q = p ∧ i = sid := by
    intro i x q hx hq cq
    obtain ⟨y, hy, -, -, -, -, -, hp⟩ := hget i x hx
    rcases hp q hq with hq | hq
    · exact absurd cq (hno i y q hy hq)
    · exact hq
  have hshow : ∀ j, Shows m' c j → Shows m c j := by
    rintro j (hj | ⟨a, x, ha, hx, hxc⟩)
    · exact .inl (hon ▸ hj)
    · obtain ⟨y, hy, -, -, e, -⟩ := hget j x hx
      exact .inr ⟨a, y, hprov ▸ ha, hy, e ▸ hxc⟩
  refine ⟨hb, ?_, ?_, ?_, ?_, ?_, ?_, ?_, ?_, ?_⟩
  · intro i hi
    rw [hon] at hi
    obtain ⟨x, hx, x1, x2, x3, x4⟩ := h.fresh i hi
    rw [hs', get_set hs]
    split
    · rename_i e
      subst e
      obtain rfl : s = x := Option.some.inj (hs.symm.trans hx)
      exact ⟨_, rfl, x1, x2, x3, x4⟩
    · exact ⟨x, hx, x1, x2, x3, x4⟩
  · intro i j si sj q r hi hj hq hr cq cr
    rw [hnow] at cq cr
    exact (hcl i si q hi hq cq).2.trans (hcl j sj r hj hr cr).2.symm
  · intro i x hx
    rw [hnow]
    rw [hs', get_set hs] at hx
    split at hx
    · obtain rfl := Option.some.inj hx
      show (s.pend ++ [p]).Pairwise _
      rw [List.pairwise_append]
      refine ⟨h.pair sid s hs, List.pairwise_singleton _ _, ?_⟩
      intro q hq _ _ cq
      exact absurd cq (hno sid s q hs hq)
    · exact h.pair i x hx
  · intro i x t hi ht ft
    rw [hnow] at ft
    obtain ⟨e, -⟩ := hcl i x _ hi ht (.inr (.inr ⟨t, rfl, ft⟩))
    obtain ⟨h1, h2⟩ := hres t e.symm ft
    exact ⟨h1, fun j hj => h2 j (hshow j hj)⟩
  · intro i x hi ht j hj
    obtain ⟨e, -⟩ := hcl i x _ hi ht (.inr (.inl rfl))
    exact hwok e.symm j (hshow j hj)
  · intro i on tok x hi ht
    obtain ⟨e, -⟩ := hcl i x _ hi ht (.inl ⟨on, tok, rfl⟩)
    obtain ⟨z, hz, z1, z2⟩ := hwait on tok e.symm
    exact ⟨z, by rw [hs']; exact hz, z1, fun j hj => z2 j (hshow j hj)⟩
  · intro i j hi hj
    exact h.shows i j (hshow i hi) (hshow j hj)
  · intro i x hsh hi he hrc
    obtain ⟨y, hy, e1, e2, -⟩ := hget i x hi
    rw [hcr]
    exact h.keys i y (hshow i hsh) hy (e1 ▸ he) (e2 ▸ hrc)
  · intro i x hi he hcn hrc
    obtain ⟨y, hy, e1, e2, -, e4, -⟩ := hget i x hi
    rw [hon]
    exact h.onl i y hy (e1 ▸ he) (e4 ▸ hcn) (e2 ▸ hrc)

/-- Removing an attempt leaves none. -/
theorem OInv.alone {m : Mgr} {c : Cid} (h : OInv m c) {sid i : Nat} {s : Sess} {p : Pend} (hs : m.sess[sid]? = some s)
    (hp : s.pend[i]? = some p) (cp : Claim m.now c p) {s' : Sess} (hs' : ∀ q ∈ s'.pend, q ∈ s.pend.eraseIdx i)
    (j : Nat) (x : Sess) (q : Pend) (hj : (m.sess.set sid s')[j]? = some x) (hq : q ∈ x.pend) : ¬ Claim m.now c q := by
  intro cq
  rw [get_set hs] at hj
  split at hj
  · obtain rfl := Option.some.inj hj
    exact pairwise_rest Sep.symm (h.pair sid s hs) hp q (hs' q hq) cp cq
  · rename_i hne
    exact hne (h.one sid j s x p q hs hj (List.mem_of_getElem? hp) hq cp cq).symm

theorem pairwise_erase {c : Cid} {now i : Nat} {l : List Pend} (h : l.Pairwise (Sep now c)) :
    (l.eraseIdx i).Pairwise (Sep now c) := h.sublist (List.eraseIdx_sublist _ _)

theorem pairwise_add {c : Cid} {now : Nat} {l : List Pend} {p : Pend} (h : l.Pairwise (Sep now c)) (hp : ¬ Claim now c p) :
    (l ++ [p]).Pairwise (Sep now c) := by
  rw [List.pairwise_append]
  refine ⟨h, List.pairwise_singleton _ _, ?_⟩
  intro q _ r hr _ cr
  rw [List.mem_singleton] at hr
  subst hr
  exact hp cr

theorem claim_add {c : Cid} {now : Nat} {l : List Pend} {p q : Pend} (hp : ¬ Claim now c p) (hq : q ∈ l ++ [p])
    (cq : Claim now c q) : q ∈ l := by
  rcases List.mem_append.mp hq with hq | hq
  · exact hq
  · rw [List.mem_singleton] at hq
    subst hq
    exact absurd cq hp

/-- Valid SYN. -/
theorem OInv.commit {m m' : Mgr} {c : Cid} (h : OInv m c) (hb : Base m') {sid i : Nat} {s : Sess} {p : Pend}
    (hs : m.sess[sid]? = some s) (hp : s.pend[i]? = some p) (cp : Claim m.now c p) (hno : ∀ j, ¬ Shows m c j)
    (hrn : s.rcid = none) (hs' : m'.sess = m.sess.set sid (s.commit i c)) (hnow : m'.now = m.now)
    (hon : m'.online = m.online) (hprov : m'.prov = m.prov) (hcr : m'.crypto = m.crypto.insert c sid) : OInv m' c := by
  have hL := h.base.loc sid s hs
  have hcn : s.conn = false := by
    cases e : s.conn with
    | false => rfl
    | true => exact absurd hrn (hL.conn e)
  have hget : ∀ (j : Nat) (x : Sess), m'.sess[j]? = some x → (j = sid ∧ x = s.commit i c) ∨ (j ≠ sid ∧ m.sess[j]? = some x) := by
    intro j x hj
    rw [hs', get_set hs] at hj
    split at hj
    · rename_i e
      exact .inl ⟨e, (Option.some.inj hj).symm⟩
    · rename_i e
      exact .inr ⟨e, hj⟩
  have hcl : ∀ (j : Nat) (x : Sess) (q : Pend), m'.sess[j]? = some x → q ∈ x.pend → ¬ Claim m.now c q := by
    intro j x q hj hq
    rw [hs'] at hj
    exact h.alone hs hp cp (s' := s.commit i c) (fun _ e => e) j x q hj hq
  have hshow : ∀ j, Shows m' c j → j = sid := by
    rintro j (hj | ⟨a, x, ha, hx, hxc⟩)
    · exact absurd (.inl (hon ▸ hj)) (hno j)
    · rcases hget j x hx with ⟨e, -⟩ | ⟨-, hx⟩
      · exact e
      · exact absurd (.inr ⟨a, x, hprov ▸ ha, hx, hxc⟩) (hno j)
  have honn : m.online.get? c = none := by
    cases e : m.online.get? c with
    | none => rfl
    | some j => exact absurd (.inl e) (hno j)
  refine ⟨hb, ?_, ?_, ?_, ?_, ?_, ?_, ?_, ?_, ?_⟩
  · intro j hj
    rw [hon, honn] at hj
    cases hj
  · intro j k sj sk q r hj hk hq hr cq cr
    rw [hnow] at cq
    exact absurd cq (hcl j sj q hj hq)
  · intro j x hj
    rw [hnow]
    rcases hget j x hj with ⟨-, rfl⟩ | ⟨-, hj⟩
    · exact pairwise_erase (h.pair sid s hs)
    · exact h.pair j x hj
  · intro j x t hj ht ft
    rw [hnow] at ft
    exact absurd (.inr (.inr ⟨t, rfl, ft⟩)) (hcl j x _ hj ht)
  · intro j x hj ht
    exact absurd (.inr (.inl rfl)) (hcl j x _ hj ht)
  · intro j on tok x hj ht
    exact absurd (.inl ⟨on, tok, rfl⟩) (hcl j x _ hj ht)
  · intro j k hj hk
    exact (hshow j hj).trans (hshow k hk).symm
  · intro j x hsh hj _ _
    rw [hshow j hsh, hcr]
    exact get?_insert_self _ _ _
  · intro j x hj he hcj hrj
    rcases hget j x hj with ⟨-, rfl⟩ | ⟨-, hj⟩
    · rw [show (s.commit i c).conn = s.conn from rfl, hcn] at hcj
      cases hcj
    · have := h.onl j x hj he hcj hrj
      rw [honn] at this
      cases this

/-- A session of the account is connected. -/
theorem OInv.up {m m' : Mgr} {c : Cid} (h : OInv m c) (hb : Base m') {sid : Nat} {s : Sess} (hs : m.sess[sid]? = some s)
    (he : s.ended = false) (hr : s.rcid = some c) (hpa : m.prov.get? s.addr = some sid)
    (hs' : m'.sess = m.sess.set sid ({ s with conn := true }.suspend (.conn c))) (hnow : m'.now = m.now)
    (hon : m'.online = m.online.insert c sid) (hprov : m'.prov = m.prov.erase s.addr) (hcr : m'.crypto = m.crypto) : OInv m' c := by
  have hL := h.base.loc sid s hs
  have hcid := hL.cid he c hr
  have hme : Shows m c sid := .inr ⟨s.addr, s, hpa, hs, hcid⟩
  have hnc : ¬ Claim m.now c (.conn c) := by
    rintro (⟨_, _, e⟩ | e | ⟨_, e, -⟩) <;> cases e
  have hget : ∀ (j : Nat) (x : Sess), m'.sess[j]? = some x → ∃ y, m.sess[j]? = some y ∧ x.ended = y.ended ∧ x.rcid = y.rcid ∧
      x.cid = y.cid ∧ x.over = y.over ∧ x.listener = y.listener ∧ (j ≠ sid → x.conn = y.conn) ∧
      (∀ q ∈ x.pend, Claim m.now c q → q ∈ y.pend) := by
    intro j x hj
    rw [hs', get_set hs] at hj
    split at hj
    · rename_i e
      obtain rfl := Option.some.inj hj
      exact ⟨s, e ▸ hs, rfl, rfl, rfl, rfl, rfl, fun e' => absurd e e', fun q hq cq => claim_add hnc hq cq⟩
    · exact ⟨x, hj, rfl, rfl, rfl, rfl, rfl, fun _ => rfl, fun _ hq _ => hq⟩
  have hshow : ∀ j, Shows m' c j → j = sid := by
    rintro j (hj | ⟨a, x, ha, hx, hxc⟩)
    · rw [hon, get?_insert_self] at hj
      exact (Option.some.inj hj).symm
    · obtain ⟨y, hy, -, -, e, -⟩ := hget j x hx
      rw [hprov] at ha
      exact h.shows j sid (.inr ⟨a, y, (sub_erase ha).1, hy, e ▸ hxc⟩) hme
  refine ⟨hb, ?_, ?_, ?_, ?_, ?_, ?_, ?_, ?_, ?_⟩
  · intro j hj
    obtain rfl := hshow j (.inl hj)
    rw [hs', get_set_self hs]
    exact ⟨_, rfl, hL.notOver he, hcid, rfl, hr⟩
  · intro j k sj sk q r hj hk hq hr' cq cr
    rw [hnow] at cq cr
    obtain ⟨yj, hyj, -, -, -, -, -, -, hpj⟩ := hget j sj hj
    obtain ⟨yk, hyk, -, -, -, -, -, -, hpk⟩ := hget k sk hk
    exact h.one j k yj yk q r hyj hyk (hpj q hq cq) (hpk r hr' cr) cq cr
  · intro j x hj
    rw [hnow]
    rw [hs', get_set hs] at hj
    split at hj
    · obtain rfl := Option.some.inj hj
      exact pairwise_add (h.pair sid s hs) hnc
    · exact h.pair j x hj
  · intro j x t hj ht ft
    rw [hnow] at ft
    obtain ⟨y, hy, -, -, -, -, -, -, hpj⟩ := hget j x hj
    exact absurd hme ((h.resvd j y t hy (hpj _ ht (.inr (.inr ⟨t, rfl, ft⟩))) ft).2 sid)
  · intro j x hj ht
    obtain ⟨y, hy, -, -, -, -, -, -, hpj⟩ := hget j x hj
    exact absurd hme (h.woken j y hy (hpj _ ht (.inr (.inl rfl))) sid)
  · intro j on tok x hj ht
    obtain ⟨y, hy, -, -, -, -, -, -, hpj⟩ := hget j x hj
    obtain ⟨z, hz, z1, z2⟩ := h.wait j on tok y hy (hpj _ ht (.inl ⟨on, tok, rfl⟩))
    obtain rfl := z2 sid hme
    obtain rfl : s = z := Option.some.inj (hs.symm.trans hz)
    have hnew := get_set_self (s' := ({ s with conn := true } : Sess).suspend (.conn c)) hs
    rw [← hs'] at hnew
    exact ⟨_, hnew, z1, hshow⟩
  · intro j k hj hk
    exact (hshow j hj).trans (hshow k hk).symm
  · intro j x hsh hj _ _
    rw [hshow j hsh, hcr]
    exact h.keys sid s hme hs he hr
  · intro j x hj hej hcj hrj
    obtain ⟨y, hy, e1, e2, -, -, -, e6, -⟩ := hget j x hj
    by_cases e : j = sid
    · rw [e, hon, get?_insert_self]
    · have := h.onl j y hy (e1 ▸ hej) (e6 e ▸ hcj) (e2 ▸ hrj)
      exact absurd (h.shows j sid (.inl this) hme) e

theorem set_same {l : List Sess} {sid : Nat} {s : Sess} (hs : l[sid]? = some s) : l = l.set sid s := by
  apply List.ext_getElem?
  intro j
  rw [get_set hs]
  split
  · rename_i e
    rw [e, hs]
  · rfl

theorem OInv.step {m : Mgr} {c : Cid} (hc0 : c ≠ 0) (h : OInv m c) {ev : Ev} (ha : m.Allowed ev) (ho : m.Orderly c ev) :
    OInv (m.step ev) c := by
  have hb := h.base.step ha
  cases ev with
  | accept addr =>
    have hnew : ∀ (i : Nat) (s : Sess), (m.sess ++ [({ addr := addr } : Sess)])[i]? = some s →
        m.sess[i]? = some s ∨ (i = m.sess.length ∧ s = { addr := addr }) := by
      intro i s hi
      rw [List.getElem?_append] at hi
      split at hi
      · exact .inl hi
      · rename_i hge
        have : i - m.sess.length = 0 := by
          cases hd : i - m.sess.length with
          | zero => rfl
          | succ n =>
            rw [hd] at hi
            cases hi
        rw [this] at hi
        exact .inr ⟨by omega, (Option.some.inj hi).symm⟩
    have hold : ∀ (i : Nat) (s : Sess), m.sess[i]? = some s → (m.sess ++ [({ addr := addr } : Sess)])[i]? = some s := by
      intro i s hs
      rw [List.getElem?_append_left (List.getElem?_eq_some_iff.mp hs).1]
      exact hs
    have hshow : ∀ j, Shows (m.step (.accept addr)) c j → Shows m c j := by
      rintro j (hj | ⟨a, x, hax, hx, hxc⟩)
      · exact .inl hj
      · rcases hnew j x hx with hx | ⟨-, rfl⟩
        · refine .inr ⟨a, x, ?_, hx, hxc⟩
          have hax : (m.prov.insert addr m.sess.length).get? a = some j := hax
          rw [get?_insert] at hax
          split at hax
          · obtain rfl := Option.some.inj hax
            have := (List.getElem?_eq_some_iff.mp hx).1
            omega
          · exact hax
        · cases hxc
    refine ⟨hb, ?_, ?_, ?_, ?_, ?_, ?_, ?_, ?_, ?_⟩
    · intro i hi
      obtain ⟨s, hs, r⟩ := h.fresh i hi
      exact ⟨s, hold i s hs, r⟩
    · intro i j si sj p q hi hj hp hq
      rcases hnew i si hi with hi | ⟨-, rfl⟩
      · rcases hnew j sj hj with hj | ⟨-, rfl⟩
        · exact h.one i j si sj p q hi hj hp hq
        · cases hq
      · cases hp
    · intro i s hi
      rcases hnew i s hi with hi | ⟨-, rfl⟩
      · exact h.pair i s hi
      · exact List.Pairwise.nil
    · intro i s t hi ht ft
      rcases hnew i s hi with hi | ⟨-, rfl⟩
      · obtain ⟨h1, h2⟩ := h.resvd i s t hi ht ft
        exact ⟨h1, fun j hj => h2 j (hshow j hj)⟩
      · cases ht
    · intro i s hi ht j hj
      rcases hnew i s hi with hi | ⟨-, rfl⟩
      · exact h.woken i s hi ht j (hshow j hj)
      · cases ht
    · intro i on tok s hi ht
      rcases hnew i s hi with hi | ⟨-, rfl⟩
      · obtain ⟨x, hx, x1, x2⟩ := h.wait i on tok s hi ht
        exact ⟨x, hold on x hx, x1, fun j hj => x2 j (hshow j hj)⟩
      · cases ht
    · intro i j hi hj
      exact h.shows i j (hshow i hi) (hshow j hj)
    · intro i s hsh hi he hr
      rcases hnew i s hi with hi | ⟨-, rfl⟩
      · exact h.keys i s (hshow i hsh) hi he hr
      · cases hr
    · intro i s hi he hcn hr
      rcases hnew i s hi with hi | ⟨-, rfl⟩
      · exact h.onl i s hi he hcn hr
      · cases hr
  | syn sid c' k =>
    simp only [Mgr.step] at hb ⊢
    cases hs : m.sess[sid]? with
    | none => exact h
    | some s =>
      rw [hs] at hb
      dsimp only at hb ⊢
      split
      · exact h
      · rename_i hg
        rw [if_neg hg] at hb
        have hL := h.base.loc sid s hs
        have he : s.ended = false := by
          cases he : s.ended with
          | false => rfl
          | true => exact absurd (Or.inl he) hg
        have hst : s.st = .provisional := Decidable.byContradiction fun e => hg (Or.inr e)
        have hfr : ∀ t, m.resv.get? c = some t → m.now < t + ttl → m.fresh.get? c = some t :=
          fun t e f => get?_fresh h.base e f
        have hdead : ∀ {m' : Mgr}, m' = { m with resv := m.fresh }.set sid s.halt → Base m' → OInv m' c := by
          rintro m' rfl hb'
          exact h.halt (s' := s.halt) hs hb' rfl rfl rfl rfl (fun t e f _ => hfr t e f) (.inl rfl)
            ⟨rfl, rfl, rfl, rfl, rfl⟩ rfl rfl
        unfold Mgr.syn at hb ⊢
        dsimp only at hb ⊢
        have hfeq : ({ m with resv := m.fresh } : Mgr).find c' k = m.find c' k := rfl
        rw [hfeq] at hb ⊢
        cases hf : m.find c' k with
        | some i =>
          rw [hf] at hb
          dsimp only at hb ⊢
          cases hx : m.sess[i]? with
          | none =>
            rw [hx] at hb
            dsimp only at hb ⊢
            exact h.less hb hs (set_same hs) rfl (fun a b => ⟨a, b, rfl⟩) id id (.inr fun _ e => e) (fun _ e _ => e)
              (h.pair sid s hs) (fun _ _ e => e) (fun _ e => e) (fun _ e _ => e)
              (fun _ a b c d => ⟨a, b, c, d⟩) (fun t e f _ => hfr t e f) (.inl rfl)
          | some x =>
            rw [hx] at hb
            dsimp only at hb ⊢
            split
            · rename_i hd
              rw [if_pos hd] at hb
              exact hdead rfl hb
            · rename_i hd
              rw [if_neg hd] at hb
              split
              · rename_i hli
                rw [if_pos hli] at hb
                exact hdead rfl hb
              · rename_i hli
                rw [if_neg hli] at hb
                have hln : x.listener = none := by
                  cases e : x.listener with
                  | none => rfl
                  | some t => exact absurd (by rw [e]; rfl) hli
                have hne : sid ≠ i := by
                  rintro rfl
                  obtain rfl : s = x := Option.some.inj (hs.symm.trans hx)
                  rw [hst] at hd
                  exact hd (by simp)
                have hLx := h.base.loc i x hx
                -- first the listener, then the continuation
                have hb1 : Base ({ m with resv := m.fresh, nextTok := m.nextTok + 1 }.set i
                    { x with listener := some m.nextTok }) := by
                  have hf' : Base { m with resv := m.fresh, nextTok := m.nextTok + 1 } :=
                    ⟨h.base.loc, h.base.addr, h.base.prov, h.base.nprov, nodup_filter h.base.nresv _⟩
                  exact hf'.set hx rfl ⟨hLx.over, hLx.ended, hLx.cid, hLx.pend, hLx.st, hLx.conn⟩ rfl rfl
                have h1 : OInv ({ m with resv := m.fresh, nextTok := m.nextTok + 1 }.set i
                    { x with listener := some m.nextTok }) c := by
                  refine h.less hb1 hx rfl rfl (fun a b => ⟨a, b, rfl⟩) id id (.inr ?_) (fun _ e _ => e)
                    (h.pair i x hx) (fun _ _ e => e) (fun _ e => e) (fun _ e _ => e)
                    (fun _ a b c d => ⟨a, b, c, d⟩) (fun t e f _ => hfr t e f) (.inl rfl)
                  intro tok e
                  rw [hln] at e
                  cases e
                have hs1 : (({ m with resv := m.fresh, nextTok := m.nextTok + 1 } : Mgr).set i
                    { x with listener := some m.nextTok }).sess[sid]? = some s := by
                  show (m.sess.set i _)[sid]? = some s
                  rw [get_set hx, if_neg hne]
                  exact hs
                by_cases hcc : c' = c
                · subst hcc
                  have hsh := find_shows h.base hc0 hf
                  refine h1.claim hb hs1 ?_ rfl rfl rfl rfl rfl ?_ ?_ ?_
                  · intro j y q hj hq cq
                    have hj : (m.sess.set i { x with listener := some m.nextTok })[j]? = some y := hj
                    have hj' : ∃ y', m.sess[j]? = some y' ∧ q ∈ y'.pend := by
                      rw [get_set hx] at hj
                      split at hj
                      · rename_i e
                        obtain rfl := Option.some.inj hj
                        exact ⟨x, e ▸ hx, hq⟩
                      · exact ⟨y, hj, hq⟩
                    obtain ⟨y', hy', hq'⟩ := hj'
                    rcases cq with ⟨on, tok, rfl⟩ | rfl | ⟨t, rfl, ft⟩
                    · obtain ⟨z, hz, z1, z2⟩ := h.wait j on tok y' hy' hq'
                      obtain rfl := z2 i hsh
                      obtain rfl : x = z := Option.some.inj (hx.symm.trans hz)
                      obtain ⟨w, hw, hw2, -⟩ := h.shown hsh
                      obtain rfl : x = w := Option.some.inj (hx.symm.trans hw)
                      rcases z1 with z1 | z1
                      · rw [hw2] at z1
                        cases z1
                      · rw [hln] at z1
                        cases z1
                    · exact h.woken j y' hy' hq' i hsh
                    · exact (h.resvd j y' t hy' hq' ft).2 i hsh
                  · intro t e
                    cases e
                  · intro e
                    cases e
                  · intro on tok e
                    cases e
                    refine ⟨{ x with listener := some m.nextTok }, ?_, .inr rfl, ?_⟩
                    · rw [get_set hs1, if_neg (fun e => hne e.symm)]
                      exact get_set_self hx
                    · intro j hj
                      have hj' : Shows m c' j := by
                        rcases hj with hj | ⟨a, y, hay, hy, hyc⟩
                        · exact .inl hj
                        · have hy : (m.sess.set i { x with listener := some m.nextTok })[j]? = some y := hy
                          rw [get_set hx] at hy
                          split at hy
                          · rename_i e
                            obtain rfl := Option.some.inj hy
                            exact .inr ⟨a, x, hay, e ▸ hx, hyc⟩
                          · exact .inr ⟨a, y, hay, hy, hyc⟩
                      exact h.shows j i hj' hsh
                · have hnc : ∀ now, ¬ Claim now c (.wait c' i m.nextTok) := by
                    rintro now (⟨_, _, e⟩ | e | ⟨_, e, -⟩)
                    · cases e
                      exact hcc rfl
                    · cases e
                    · cases e
                  exact h1.set hs1 hb rfl rfl rfl (fun _ _ e => e) rfl rfl (fun a b => ⟨a, b, rfl⟩) ⟨rfl, rfl⟩ id
                    (fun a b c => ⟨c, a, b⟩) (fun q hq cq => claim_add (hnc _) hq cq) (pairwise_add (h.pair sid s hs) (hnc _))
        | none =>
          rw [hf] at hb
          dsimp only at hb ⊢
          split
          · rename_i hr
            rw [if_pos hr] at hb
            exact hdead rfl hb
          · rename_i hr
            rw [if_neg hr] at hb
            by_cases hcc : c' = c
            · subst hcc
              have hno := ho rfl hf
              refine h.claim hb hs ?_ rfl rfl rfl rfl rfl ?_ ?_ ?_
              · intro j y q hj hq cq
                rcases cq with ⟨on, tok, rfl⟩ | rfl | ⟨t, rfl, ft⟩
                · exact (hno y (List.mem_of_getElem? hj) _ hq).1 on tok rfl
                · exact (hno y (List.mem_of_getElem? hj) _ hq).2 rfl
                · have := hfr t (h.resvd j y t hj hq ft).1 ft
                  rw [this] at hr
                  exact hr rfl
              · intro t e _
                cases e
                exact ⟨get?_insert_self _ _ _, find_none' hf⟩
              · intro e
                cases e
              · intro on tok e
                cases e
            · have hnc : ¬ Claim m.now c (.syn c' (some m.now)) := by
                rintro (⟨_, _, e⟩ | e | ⟨_, e, -⟩)
                · cases e
                · cases e
                · cases e
                  exact hcc rfl
              refine h.less hb hs rfl rfl (fun a b => ⟨a, b, rfl⟩) id id (.inr fun _ e => e)
                (fun q hq cq => claim_add hnc hq cq) (pairwise_add (h.pair sid s hs) hnc) (fun _ _ e => e) (fun _ e => e)
                (fun _ e _ => e) (fun _ a b c d => ⟨a, b, c, d⟩) ?_ (.inl rfl)
              intro t e f _
              show (m.fresh.insert c' m.now).get? c = some t
              rw [get?_insert_ne _ _ (fun e => hcc e.symm)]
              exact hfr t e f
  | wake sid i =>
    simp only [Mgr.step] at hb ⊢
    split
    · exact h
    · rename_i s hs
      rw [hs] at hb
      dsimp only at hb
      split
      · rename_i c' on tok hp
        rw [hp] at hb
        dsimp only at hb
        have hL := h.base.loc sid s hs
        by_cases hcc : c' = c
        · subst hcc
          obtain ⟨x, hx, x1, x2⟩ := h.wait sid on tok s hs (List.mem_of_getElem? hp)
          have hov : x.over = true := by
            rcases ha s c' on tok hs hp x hx with hl | hl
            · rcases x1 with x1 | x1
              · exact x1
              · exact absurd x1 hl
            · exact hl.1
          have hno : ∀ j, ¬ Shows m c' j := by
            intro j hj
            obtain rfl := x2 j hj
            obtain ⟨y, hy, hy2, -⟩ := h.shown hj
            obtain rfl : x = y := Option.some.inj (hx.symm.trans hy)
            rw [hov] at hy2
            cases hy2
          -- first the waiting attempt goes, then the new one comes
          have hb1 : Base (m.set sid { s with pend := s.pend.eraseIdx i }) := h.base.set hs rfl hL.rest rfl rfl
          have h1 : OInv (m.set sid { s with pend := s.pend.eraseIdx i }) c' :=
            h.set hs hb1 rfl rfl rfl (fun _ _ e => e) rfl rfl (fun a b => ⟨a, b, rfl⟩) ⟨rfl, rfl⟩ id (fun a b c => ⟨c, a, b⟩)
              (fun q hq _ => mem_eraseIdx hq) (pairwise_erase (h.pair sid s hs))
          have hs1 : (m.set sid { s with pend := s.pend.eraseIdx i }).sess[sid]? =
              some { s with pend := s.pend.eraseIdx i } := get_set_self hs
          have hno1 : ∀ j, ¬ Shows (m.set sid { s with pend := s.pend.eraseIdx i }) c' j := by
            rintro j (hj | ⟨a, y, hay, hy, hyc⟩)
            · exact hno j (.inl hj)
            · have hy : (m.sess.set sid { s with pend := s.pend.eraseIdx i })[j]? = some y := hy
              rw [get_set hs] at hy
              split at hy
              · rename_i e
                obtain rfl := Option.some.inj hy
                exact hno j (.inr ⟨a, s, hay, e ▸ hs, hyc⟩)
              · exact hno j (.inr ⟨a, y, hay, hy, hyc⟩)
          refine h1.claim (p := .syn c' none) hb hs1 ?_ ?_ rfl rfl rfl rfl ?_ ?_ ?_
          · intro j y q hj hq cq
            exact h.alone hs hp (.inl ⟨on, tok, rfl⟩) (s' := { s with pend := s.pend.eraseIdx i }) (fun _ e => e) j y q hj hq cq
          · show m.sess.set sid _ = (m.sess.set sid _).set sid _
            rw [List.set_set]
            rfl
          · intro t e
            cases e
          · intro _
            exact hno1
          · intro on' tok' e
            cases e
        · have hnc : ¬ Claim m.now c (.syn c' none) := by
            rintro (⟨_, _, e⟩ | e | ⟨_, e, -⟩)
            · cases e
            · cases e
              exact hcc rfl
            · cases e
          exact h.set hs hb rfl rfl rfl (fun _ _ e => e) rfl rfl (fun a b => ⟨a, b, rfl⟩) ⟨rfl, rfl⟩ id (fun a b c => ⟨c, a, b⟩)
            (fun q hq cq => mem_eraseIdx (claim_add hnc hq cq)) (pairwise_add (pairwise_erase (h.pair sid s hs)) hnc)
      · exact h
  | timeout sid i =>
    simp only [Mgr.step] at hb ⊢
    split
    · exact h
    · rename_i s hs
      rw [hs] at hb
      dsimp only at hb
      split
      · rename_i c' on tok hp
        rw [hp] at hb
        dsimp only at hb
        have hcc : c' ≠ c := by
          rintro rfl
          exact ho s on tok hs hp
        have hnc : ¬ Claim m.now c (.syn c' none) := by
          rintro (⟨_, _, e⟩ | e | ⟨_, e, -⟩)
          · cases e
          · cases e
            exact hcc rfl
          · cases e
        exact h.set hs hb rfl rfl (get?_erase_ne _ hcc.symm) (fun _ _ e => (sub_filter h.base.nprov e).1)
          (get?_erase_ne _ hcc.symm) rfl (fun a b => ⟨a, b, rfl⟩) ⟨rfl, rfl⟩ id (fun a b c => ⟨c, a, b⟩)
          (fun q hq cq => mem_eraseIdx (claim_add hnc hq cq)) (pairwise_add (pairwise_erase (h.pair sid s hs)) hnc)
      · exact h
  | goOn sid i r =>
    simp only [Mgr.step] at hb ⊢
    split
    · exact h
    · rename_i s hs
      rw [hs] at hb
      dsimp only at hb
      split
      · rename_i c' o hp
        rw [hp] at hb
        dsimp only at hb
        have hL := h.base.loc sid s hs
        have he := hL.running hp
        by_cases hcc : c' = c
        · subst hcc
          have hclaim : Claim m.now c' (.syn c' o) ∧ ∀ j, ¬ Shows m c' j := by
            cases o with
            | none => exact ⟨.inr (.inl rfl), h.woken sid s hs (List.mem_of_getElem? hp)⟩
            | some t =>
              have ft := ho s t hs hp
              exact ⟨.inr (.inr ⟨t, rfl, ft⟩), (h.resvd sid s t hs (List.mem_of_getElem? hp) ft).2⟩
          obtain ⟨cp, hno⟩ := hclaim
          unfold Mgr.goOn at hb ⊢
          cases r with
          | valid =>
            dsimp only at hb ⊢
            split
            · rename_i hrc
              rw [if_pos hrc] at hb
              refine h.halt (s' := Sess.panic _) hs hb rfl rfl rfl rfl (fun t e _ _ => e) (.inr hno) ⟨rfl, rfl, rfl, rfl, rfl⟩ rfl rfl
            · rename_i hrc
              rw [if_neg hrc] at hb
              refine h.commit hb hs hp cp hno ?_ rfl rfl rfl rfl rfl
              cases e : s.rcid with
              | none => rfl
              | some x => exact absurd (by simp [e]) hrc
          | invalid =>
            refine h.halt (s' := Sess.halt _) hs hb rfl rfl rfl rfl ?_ (.inl rfl) ⟨rfl, rfl, rfl, rfl, rfl⟩ rfl rfl
            rintro t _ ft ⟨j, y, hj, hy⟩
            exact absurd (.inr (.inr ⟨t, rfl, ft⟩))
              (h.alone hs hp cp (s' := Sess.halt _) (fun _ e => by cases e) j y _ hj hy)
          | error =>
            exact h.halt (s' := Sess.halt _) hs hb rfl rfl rfl rfl (fun t e _ _ => e) (.inl rfl) ⟨rfl, rfl, rfl, rfl, rfl⟩ rfl rfl
        · unfold Mgr.goOn at hb ⊢
          cases r with
          | valid =>
            dsimp only at hb ⊢
            split
            · rename_i hrc
              rw [if_pos hrc] at hb
              exact h.halt (s' := Sess.panic _) hs hb rfl rfl rfl rfl (fun t e _ _ => e)
                (.inl (get?_insert_ne _ _ (fun e => hcc e.symm))) ⟨rfl, rfl, rfl, rfl, rfl⟩ rfl rfl
            · rename_i hrc
              rw [if_neg hrc] at hb
              refine h.set (s' := s.commit i c') hs hb rfl rfl rfl (fun _ _ e => e)
                (get?_erase_ne _ (fun e => hcc e.symm)) (get?_insert_ne _ _ (fun e => hcc e.symm)) ?_ ⟨rfl, rfl⟩ ?_ ?_
                (fun q hq _ => mem_eraseIdx hq) (pairwise_erase (h.pair sid s hs))
              · intro _ e
                exact absurd (Option.some.inj e) hcc
              · intro e
                exact absurd (Option.some.inj e) hcc
              · intro _ e
                exact absurd (by simp [e]) hrc
          | invalid =>
            exact h.halt (s' := Sess.halt _) hs hb rfl rfl rfl rfl
              (fun t e _ _ => (get?_erase_ne _ (fun e => hcc e.symm)).trans e) (.inl rfl) ⟨rfl, rfl, rfl, rfl, rfl⟩ rfl rfl
          | error =>
            exact h.halt (s' := Sess.halt _) hs hb rfl rfl rfl rfl (fun t e _ _ => e) (.inl rfl) ⟨rfl, rfl, rfl, rfl, rfl⟩ rfl rfl
      · exact h
  | connect sid =>
    simp only [Mgr.step] at hb ⊢
    split
    · exact h
    · rename_i s hs
      rw [hs] at hb
      dsimp only at hb
      split
      · exact h
      · rename_i c' hr
        rw [hr] at hb
        dsimp only at hb
        split
        · exact h
        · rename_i hg
          rw [if_neg hg] at hb
          have he : s.ended = false := by
            cases he : s.ended with
            | false => rfl
            | true => exact absurd (Or.inl he) hg
          have hL := h.base.loc sid s hs
          unfold Mgr.upgrade at hb ⊢
          split
          · rename_i hn
            rw [hn] at hb
            exact h.halt (s' := s.halt) hs hb rfl rfl rfl rfl (fun t e _ _ => e) (.inl rfl) ⟨rfl, rfl, rfl, rfl, rfl⟩ rfl rfl
          · rename_i i hpa
            rw [hpa] at hb
            dsimp only at hb
            obtain rfl := h.base.own hs he hpa
            by_cases hcc : c' = c
            · subst hcc
              exact h.up hb hs he hr hpa rfl rfl rfl rfl rfl
            · have hnc : ¬ Claim m.now c (.conn c') := by
                rintro (⟨_, _, e⟩ | e | ⟨_, e, -⟩) <;> cases e
              refine h.set hs hb rfl rfl (get?_insert_ne _ _ (fun e => hcc e.symm)) (fun _ _ e => (sub_erase e).1)
                rfl rfl ?_ ⟨rfl, rfl⟩ id (fun a b c => ⟨c, rfl, b⟩) (fun q hq cq => claim_add hnc hq cq)
                (pairwise_add (h.pair i s hs) hnc)
              intro _ e
              exact absurd (Option.some.inj (hr.symm.trans e)) hcc
  | connected sid i ok =>
    simp only [Mgr.step] at hb ⊢
    split
    · exact h
    · rename_i s hs
      rw [hs] at hb
      dsimp only at hb
      split
      · rename_i c' hp
        rw [hp] at hb
        dsimp only at hb
        have hL := h.base.loc sid s hs
        have he := hL.running hp
        have hcs := hL.cid he c' (hL.pend c' (List.mem_of_getElem? hp)).1
        split
        · rename_i hok
          rw [if_pos hok] at hb
          exact h.set hs hb rfl rfl rfl (fun _ _ e => e) rfl rfl (fun a b => ⟨a, b, rfl⟩) ⟨rfl, rfl⟩ (fun e => hcs.trans e)
            (fun a b c => ⟨hcs.symm.trans c, a, b⟩) (fun q hq _ => mem_eraseIdx hq) (pairwise_erase (h.pair sid s hs))
        · rename_i hok
          rw [if_neg hok] at hb
          exact h.halt (s' := s.halt) hs hb rfl rfl rfl rfl (fun t e _ _ => e) (.inl rfl) ⟨rfl, rfl, rfl, rfl, rfl⟩ rfl rfl
      · exact h
  | disc sid =>
    simp only [Mgr.step] at hb ⊢
    split
    · exact h
    · rename_i s hs
      rw [hs] at hb
      dsimp only at hb
      split
      · exact h
      · rename_i hg
        rw [if_neg hg] at hb
        exact h.set hs hb rfl rfl rfl (fun _ _ e => e) rfl rfl (fun a b => ⟨a, b, rfl⟩) ⟨rfl, rfl⟩ id (fun a b c => ⟨c, a, b⟩)
          (fun q hq _ => hq) (h.pair sid s hs)
  | reset sid =>
    simp only [Mgr.step] at hb ⊢
    split
    · exact h
    · rename_i s hs
      rw [hs] at hb
      dsimp only at hb
      split
      · exact h
      · rename_i hg
        rw [if_neg hg] at hb
        exact h.set hs hb rfl rfl rfl (fun _ _ e => e) rfl rfl (fun a b => ⟨a, b, rfl⟩) ⟨rfl, rfl⟩ id (fun a b c => ⟨c, a, b⟩)
          (fun q hq _ => hq) (h.pair sid s hs)
  | failure sid =>
    simp only [Mgr.step] at hb ⊢
    split
    · exact h
    · rename_i s hs
      rw [hs] at hb
      dsimp only at hb
      split
      · exact h
      · rename_i hg
        rw [if_neg hg] at hb
        refine h.set hs hb rfl rfl rfl (fun _ _ e => e) rfl rfl (fun e => by cases e) ⟨rfl, rfl⟩ (fun e => by cases e) ?_
          (fun q hq _ => by cases hq) List.Pairwise.nil
        intro a b
        rw [ho s hs b] at a
        cases a
  | regFail sid =>
    simp only [Mgr.step] at hb ⊢
    split
    · exact h
    · rename_i s hs
      rw [hs] at hb
      dsimp only at hb
      split
      · exact h
      · rename_i hg
        rw [if_neg hg] at hb
        refine h.set hs hb (s' := s) ((clearProv_sess _ _ _).trans (set_same hs)) ?_ (by rw [clearProv_online])
          (fun a i e => prov_sub_clear e) ?_ ?_ (fun a b => ⟨a, b, rfl⟩) ⟨rfl, rfl⟩ id (fun a b c => ⟨c, a, b⟩)
          (fun q hq _ => hq) (h.pair sid s hs)
        · unfold Mgr.clearProv
          split <;> rfl
        · unfold Mgr.clearProv
          split <;> rfl
        · unfold Mgr.clearProv
          split <;> rfl
  | finish sid panic =>
    cases hs : m.sess[sid]? with
    | none =>
      have : m.step (.finish sid panic) = m := by
        simp only [Mgr.step]
        rw [hs]
      rw [this]
      exact h
    | some s =>
      cases hov : s.over with
      | true =>
        have : m.step (.finish sid panic) = m := by
          simp only [Mgr.step]
          rw [hs]
          simp only [hov, if_true]
        rw [this]
        exact h
      | false =>
        rw [finish_eq hs hov] at hb ⊢
        obtain ⟨r1, r2, r3, r4⟩ := cleared_rest m sid s panic
        refine h.less hb hs (s' := s.gone) (by rw [← cleared_sess m sid s panic]; rfl) r3 (fun e => by cases e) id
          (fun _ => rfl) (.inl rfl) (fun q hq _ => by cases hq) List.Pairwise.nil
          (fun a i e => (cleared_prov h.base hs e).1) ?_ ?_ ?_ ?_ ?_
        · intro i e
          rcases r4 c with r | ⟨r, r', -⟩
          · exact r.symm.trans e
          · exact absurd (r'.symm.trans e) (by simp)
        · intro j e hj
          rcases r4 c with r | ⟨r, -⟩
          · exact r.trans e
          · obtain rfl := Option.some.inj (r.symm.trans e)
            exact absurd (hj rfl) (by simp [Sess.gone, Sess.halt])
        · intro hon _ hcid hcn hrc
          rw [ho s hs hrc hcn] at hon
          exact absurd hon (cleared_online_none hcid)
        · intro t e _ _
          show (m.cleared sid s panic).resv.get? c = some t
          rw [r1]
          exact e
        · left
          show (m.cleared sid s panic).crypto.get? c = _
          rw [r2]
  | tick n =>
    have hmono : ∀ p, Claim (m.now + n) c p → Claim m.now c p := by
      rintro p (e | e | ⟨t, e, f⟩)
      · exact .inl e
      · exact .inr (.inl e)
      · exact .inr (.inr ⟨t, e, Nat.lt_of_le_of_lt (Nat.le_add_right _ _) f⟩)
    refine ⟨hb, h.fresh, ?_, ?_, ?_, h.woken, h.wait, h.shows, h.keys, h.onl⟩
    · intro i j si sj p q hi hj hp hq cp cq
      exact h.one i j si sj p q hi hj hp hq (hmono p cp) (hmono q cq)
    · intro i s hi
      refine (h.pair i s hi).imp ?_
      intro p q hpq cp cq
      exact hpq (hmono p cp) (hmono q cq)
    · intro i s t hi ht ft
      exact h.resvd i s t hi ht (Nat.lt_of_le_of_lt (Nat.le_add_right _ _) ft)

theorem RunWith.orderly {evs : List Ev} {m : Mgr} {c : Cid} (hc : c ≠ 0) (h : RunWith (fun m => m.Orderly c) evs m) :
    OInv m c := by
  induction h with
  | init => exact OInv.init c
  | step _ ha ho ih => exact ih.step hc ha ho

end Verif.Sessions

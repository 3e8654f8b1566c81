import Verif.Sessions.Lemmas
/-!
Invariants of calm executions.
-/
namespace Verif.Sessions
open AMap

/-- Not both are SYNs for the same CID with a reservation that has not expired. -/
def Apart (now : Nat) (p q : Pend) : Prop :=
  ∀ c t u, p = .syn c (some t) → q = .syn c (some u) → now < t + ttl → now < u + ttl → False

theorem Apart.symm {now : Nat} {p q : Pend} (h : Apart now p q) : Apart now q p :=
  fun c t u hq hp ft fu => h c u t hp hq fu ft

structure CInv (m : Mgr) : Prop where
  base : Base m
  shape : ∀ (i : Nat) (s : Sess) (p : Pend), m.sess[i]? = some s → p ∈ s.pend →
    (∃ c t, p = .syn c (some t)) ∨ ∃ c, p = .conn c
  pair : ∀ (i : Nat) (s : Sess), m.sess[i]? = some s → s.pend.Pairwise (Apart m.now)
  excl : ∀ (i j : Nat) (si sj : Sess) (c t u : Nat), m.sess[i]? = some si → m.sess[j]? = some sj →
    .syn c (some t) ∈ si.pend → .syn c (some u) ∈ sj.pend → m.now < t + ttl → m.now < u + ttl → i = j
  held : ∀ (i : Nat) (s : Sess) (c t : Nat), m.sess[i]? = some s → .syn c (some t) ∈ s.pend → m.now < t + ttl →
    m.resv.get? c = some t ∧ m.online.get? c = none ∧
      ∀ (a j : Nat) (sj : Sess), m.prov.get? a = some j → m.sess[j]? = some sj → sj.ended = false → sj.rcid ≠ some c
  onl : ∀ (i : Nat) (s : Sess) (c : Cid), m.sess[i]? = some s → s.ended = false → s.conn = true → s.rcid = some c →
    m.online.get? c = some i ∧ m.crypto.get? c = some i
  vis : ∀ (a i : Nat) (s : Sess) (c : Cid), m.prov.get? a = some i → m.sess[i]? = some s → s.ended = false →
    s.rcid = some c → m.online.get? c = none ∧ m.crypto.get? c = some i ∧
      ∀ (b j : Nat) (sj : Sess), m.prov.get? b = some j → m.sess[j]? = some sj → sj.ended = false → sj.rcid = some c →
        j = i

theorem CInv.init : CInv Mgr.init where
  base := Base.init
  shape i s p h := by simp [Mgr.init] at h
  pair i s h := by simp [Mgr.init] at h
  excl i j si sj c t u h := by simp [Mgr.init] at h
  held i s c t h := by simp [Mgr.init] at h
  onl i s c h := by simp [Mgr.init] at h
  vis a i s c h := by simp [Mgr.init] at h

/-- A session does less than before, and nothing else gets lost. -/
theorem CInv.less {m m' : Mgr} (h : CInv m) (hb : Base m') {sid : Nat} {s s' : Sess} (hs : m.sess[sid]? = some s)
    (hs' : m'.sess = m.sess.set sid s') (hnow : m'.now = m.now)
    (hl : s'.ended = false → s.ended = false ∧ s'.rcid = s.rcid ∧ s'.conn = s.conn)
    (hp : s'.pend.Sublist s.pend)
    (hprov : ∀ a i, m'.prov.get? a = some i → m.prov.get? a = some i)
    (hon : ∀ c, m.online.get? c = none → m'.online.get? c = none)
    (hon' : ∀ c j, m.online.get? c = some j → (j = sid → s'.ended = false) → m'.online.get? c = some j)
    (hr : ∀ c t, m.resv.get? c = some t → m.now < t + ttl →
      (∃ (i : Nat) (x : Sess), m'.sess[i]? = some x ∧ .syn c (some t) ∈ x.pend) → m'.resv.get? c = some t)
    (hc : ∀ c, m'.crypto.get? c = m.crypto.get? c ∨ (m.online.get? c = none ∧
      ∀ (a j : Nat) (sj : Sess), m.prov.get? a = some j → m.sess[j]? = some sj → sj.ended = false → sj.rcid ≠ some c)) :
    CInv m' := by
  have hget : ∀ (i : Nat) (x : Sess), m'.sess[i]? = some x → ∃ y, m.sess[i]? = some y ∧ x.pend.Sublist y.pend ∧
      (x.ended = false → y.ended = false ∧ x.rcid = y.rcid ∧ x.conn = y.conn) ∧ (i = sid → x.ended = false → s'.ended = false) := by
    intro i x hx
    rw [hs', get_set hs] at hx
    split at hx
    · rename_i e
      obtain rfl := Option.some.inj hx
      exact ⟨s, e ▸ hs, hp, hl, fun _ e => e⟩
    · rename_i e
      exact ⟨x, hx, List.Sublist.refl _, fun e => ⟨e, rfl, rfl⟩, fun e' => absurd e' e⟩
  refine ⟨hb, ?_, ?_, ?_, ?_, ?_, ?_⟩
  · intro i x p hx hpx
    obtain ⟨y, hy, hsub, -⟩ := hget i x hx
    exact h.shape i y p hy (hsub.subset hpx)
  · intro i x hx
    obtain ⟨y, hy, hsub, -⟩ := hget i x hx
    rw [hnow]
    exact (h.pair i y hy).sublist hsub
  · intro i j si sj c t u hi hj hti htj ft fu
    obtain ⟨yi, hyi, hsi, -⟩ := hget i si hi
    obtain ⟨yj, hyj, hsj, -⟩ := hget j sj hj
    rw [hnow] at ft fu
    exact h.excl i j yi yj c t u hyi hyj (hsi.subset hti) (hsj.subset htj) ft fu
  · intro i x c t hi ht ft
    obtain ⟨y, hy, hsub, -⟩ := hget i x hi
    rw [hnow] at ft
    obtain ⟨h1, h2, h3⟩ := h.held i y c t hy (hsub.subset ht) ft
    refine ⟨hr c t h1 ft ⟨i, x, hi, ht⟩, hon c h2, ?_⟩
    intro a j sj ha hj he
    obtain ⟨yj, hyj, -, hlj, -⟩ := hget j sj hj
    obtain ⟨e1, e2, -⟩ := hlj he
    rw [e2]
    exact h3 a j yj (hprov a j ha) hyj e1
  · intro i x c hi he hcn hrc
    obtain ⟨y, hy, -, hly, hen⟩ := hget i x hi
    obtain ⟨e1, e2, e3⟩ := hly he
    obtain ⟨h1, h2⟩ := h.onl i y c hy e1 (e3 ▸ hcn) (e2 ▸ hrc)
    refine ⟨hon' c i h1 (fun e => hen e he), ?_⟩
    rcases hc c with hc | hc
    · rw [hc]
      exact h2
    · rw [hc.1] at h1
      cases h1
  · intro a i x c ha hi he hrc
    obtain ⟨y, hy, -, hly, -⟩ := hget i x hi
    obtain ⟨e1, e2, -⟩ := hly he
    obtain ⟨h1, h2, h3⟩ := h.vis a i y c (hprov a i ha) hy e1 (e2 ▸ hrc)
    refine ⟨hon c h1, ?_, ?_⟩
    · rcases hc c with hc | hc
      · rw [hc]
        exact h2
      · exact absurd (e2 ▸ hrc) (hc.2 a i y (hprov a i ha) hy e1)
    · intro b j sj hb' hj hej hrj
      obtain ⟨yj, hyj, -, hlj, -⟩ := hget j sj hj
      obtain ⟨f1, f2, -⟩ := hlj hej
      exact h3 b j yj (hprov b j hb') hyj f1 (f2 ▸ hrj)

/-- Only the session changes. -/
theorem CInv.set {m : Mgr} (h : CInv m) {sid : Nat} {s s' : Sess} (hs : m.sess[sid]? = some s)
    (hb : Base (m.set sid s')) (hl : s'.ended = false → s.ended = false ∧ s'.rcid = s.rcid ∧ s'.conn = s.conn)
    (hp : s'.pend.Sublist s.pend) : CInv (m.set sid s') :=
  h.less hb hs rfl rfl hl hp (fun _ _ e => e) (fun _ e => e) (fun _ _ e _ => e) (fun _ _ e _ _ => e) (fun _ => .inl rfl)

theorem get?_fresh {m : Mgr} (hb : Base m) {c t : Nat} (h : m.resv.get? c = some t) (hf : m.now < t + ttl) :
    m.fresh.get? c = some t := by
  unfold Mgr.fresh
  rw [get?_filter hb.nresv, h]
  simp [Option.filter, hf]

theorem CInv.fresh {m : Mgr} (h : CInv m) : CInv { m with resv := m.fresh } :=
  ⟨h.base.resv (nodup_filter h.base.nresv _), h.shape, h.pair, h.excl, fun i s c t hi ht ft => by
    obtain ⟨h1, h2⟩ := h.held i s c t hi ht ft
    exact ⟨get?_fresh h.base h1 ft, h2⟩, h.onl, h.vis⟩

theorem find_none {m : Mgr} {c k : Nat} (h : m.find c k = none) :
    m.online.get? c = none ∧ ∀ (a j : Nat) (s : Sess), m.prov.get? a = some j → m.sess[j]? = some s → s.cid.getD 0 ≠ c := by
  unfold Mgr.find at h
  cases ho : m.online.get? c with
  | some i =>
    rw [ho] at h
    cases h
  | none =>
    refine ⟨rfl, ?_⟩
    rw [ho] at h
    dsimp only at h
    intro a j s ha hj e
    rw [Option.map_eq_none_iff, List.getElem?_eq_none_iff] at h
    have hm : (a, j) ∈ m.prov.filter fun e => match m.sess[e.2]? with
        | some s => decide (s.cid.getD 0 = c)
        | none => false := by
      rw [List.mem_filter]
      refine ⟨get?_mem ha, ?_⟩
      dsimp only
      rw [hj]
      exact decide_eq_true e
    have hpos := List.length_pos_of_mem hm
    exact absurd (Nat.mod_lt k hpos) (Nat.not_lt.mpr h)

theorem CInv.reserve {m : Mgr} (h : CInv m) {sid : Nat} {s : Sess} {c k : Nat} (hs : m.sess[sid]? = some s)
    (hb : Base ({ m with resv := m.fresh.insert c m.now }.set sid (s.suspend (.syn c (some m.now)))))
    (hf : m.find c k = none) (hr : m.fresh.get? c = none) :
    CInv ({ m with resv := m.fresh.insert c m.now }.set sid (s.suspend (.syn c (some m.now)))) := by
  obtain ⟨f1, f2⟩ := find_none hf
  have hno : ∀ (i : Nat) (x : Sess) (t : Nat), m.sess[i]? = some x → .syn c (some t) ∈ x.pend → m.now < t + ttl → False := by
    intro i x t hi ht ft
    have := get?_fresh h.base (h.held i x c t hi ht ft).1 ft
    rw [hr] at this
    cases this
  have hget : ∀ (i : Nat) (x : Sess), (m.sess.set sid (s.suspend (.syn c (some m.now))))[i]? = some x →
      ∃ y, m.sess[i]? = some y ∧ x.ended = y.ended ∧ x.rcid = y.rcid ∧ x.conn = y.conn ∧
        (x.pend = y.pend ∨ (i = sid ∧ x.pend = y.pend ++ [.syn c (some m.now)])) := by
    intro i x hx
    rw [get_set hs] at hx
    split at hx
    · rename_i e
      obtain rfl := Option.some.inj hx
      exact ⟨s, e ▸ hs, rfl, rfl, rfl, .inr ⟨e, rfl⟩⟩
    · exact ⟨x, hx, rfl, rfl, rfl, .inl rfl⟩
  -- a fresh SYN is an old one for another CID, or the new one
  have hsyn : ∀ (i : Nat) (x : Sess) (c' t : Nat), (m.sess.set sid (s.suspend (.syn c (some m.now))))[i]? = some x →
      .syn c' (some t) ∈ x.pend → m.now < t + ttl →
      (c' ≠ c ∧ ∃ y, m.sess[i]? = some y ∧ .syn c' (some t) ∈ y.pend) ∨ (c' = c ∧ t = m.now ∧ i = sid) := by
    intro i x c' t hx ht ft
    obtain ⟨y, hy, -, -, -, hp⟩ := hget i x hx
    have hold : .syn c' (some t) ∈ y.pend → (c' ≠ c ∧ ∃ y, m.sess[i]? = some y ∧ Pend.syn c' (some t) ∈ y.pend) := by
      intro hm
      refine ⟨?_, y, hy, hm⟩
      rintro rfl
      exact hno i y t hy hm ft
    rcases hp with hp | ⟨e, hp⟩
    · exact .inl (hold (hp ▸ ht))
    · rw [hp, List.mem_append, List.mem_singleton] at ht
      rcases ht with ht | ht
      · exact .inl (hold ht)
      · cases ht
        exact .inr ⟨rfl, rfl, e⟩
  refine ⟨hb, ?_, ?_, ?_, ?_, ?_, ?_⟩
  · intro i x p hx hpx
    obtain ⟨y, hy, -, -, -, hp⟩ := hget i x hx
    rcases hp with hp | ⟨-, hp⟩
    · exact h.shape i y p hy (hp ▸ hpx)
    · rw [hp, List.mem_append, List.mem_singleton] at hpx
      rcases hpx with hpx | rfl
      · exact h.shape i y p hy hpx
      · exact .inl ⟨c, m.now, rfl⟩
  · intro i x hx
    obtain ⟨y, hy, -, -, -, hp⟩ := hget i x hx
    rcases hp with hp | ⟨-, hp⟩
    · rw [hp]
      exact h.pair i y hy
    · rw [hp, List.pairwise_append]
      refine ⟨h.pair i y hy, List.pairwise_singleton _ _, ?_⟩
      intro p hpm q hq
      rw [List.mem_singleton] at hq
      subst hq
      intro c' t u e1 e2 ft _
      cases e2
      subst e1
      exact hno i y t hy hpm ft
  · intro i j si sj c' t u hi hj hti htj ft fu
    rcases hsyn i si c' t hi hti ft with ⟨hc, yi, hyi, hti⟩ | ⟨hc, -, e⟩
    · rcases hsyn j sj c' u hj htj fu with ⟨-, yj, hyj, htj⟩ | ⟨hc', -, -⟩
      · exact h.excl i j yi yj c' t u hyi hyj hti htj ft fu
      · exact absurd hc' hc
    · rcases hsyn j sj c' u hj htj fu with ⟨hc', -⟩ | ⟨-, -, e'⟩
      · exact absurd hc hc'
      · exact e.trans e'.symm
  · intro i x c' t hi ht ft
    rcases hsyn i x c' t hi ht ft with ⟨hc, y, hy, hty⟩ | ⟨rfl, rfl, e⟩
    · obtain ⟨h1, h2, h3⟩ := h.held i y c' t hy hty ft
      refine ⟨?_, h2, ?_⟩
      · show (m.fresh.insert c m.now).get? c' = some t
        rw [get?_insert_ne _ _ hc]
        exact get?_fresh h.base h1 ft
      · intro a j sj ha hj he
        obtain ⟨yj, hyj, e1, e2, -⟩ := hget j sj hj
        rw [e2]
        exact h3 a j yj ha hyj (e1 ▸ he)
    · refine ⟨get?_insert_self _ _ _, f1, ?_⟩
      intro a j sj ha hj he hrc
      obtain ⟨yj, hyj, e1, e2, -⟩ := hget j sj hj
      have := (h.base.loc j yj hyj).cid (e1 ▸ he) c' (e2 ▸ hrc)
      refine f2 a j yj ha hyj ?_
      rw [this]
      rfl
  · intro i x c' hi he hcn hrc
    obtain ⟨y, hy, e1, e2, e3, -⟩ := hget i x hi
    exact h.onl i y c' hy (e1 ▸ he) (e3 ▸ hcn) (e2 ▸ hrc)
  · intro a i x c' ha hi he hrc
    obtain ⟨y, hy, e1, e2, -⟩ := hget i x hi
    obtain ⟨h1, h2, h3⟩ := h.vis a i y c' ha hy (e1 ▸ he) (e2 ▸ hrc)
    refine ⟨h1, h2, ?_⟩
    intro b j sj hb' hj hej hrj
    obtain ⟨yj, hyj, g1, g2, -⟩ := hget j sj hj
    exact h3 b j yj hb' hyj (g1 ▸ hej) (g2 ▸ hrj)

theorem pairwise_rest {R : Pend → Pend → Prop} (hsym : ∀ {p q}, R p q → R q p) {l : List Pend} {i : Nat} {p : Pend}
    (hl : l.Pairwise R) (hi : l[i]? = some p) : ∀ q ∈ l.eraseIdx i, R p q := by
  induction l generalizing i with
  | nil => cases hi
  | cons a l ih =>
    rw [List.pairwise_cons] at hl
    cases i with
    | zero =>
      obtain rfl := Option.some.inj hi
      exact hl.1
    | succ i =>
      intro q hq
      rw [List.eraseIdx_cons_succ, List.mem_cons] at hq
      rcases hq with rfl | hq
      · exact hsym (hl.1 p (List.mem_of_getElem? hi))
      · exact ih hl.2 hi q hq

/-- After a SYN has gone on no other SYN for the CID has a reservation. -/
theorem CInv.alone {m : Mgr} (h : CInv m) {sid i : Nat} {s : Sess} {c t : Nat} (hs : m.sess[sid]? = some s)
    (hp : s.pend[i]? = some (.syn c (some t))) (hf : m.now < t + ttl) {s' : Sess} (hs' : s'.pend.Sublist (s.pend.eraseIdx i))
    {j u : Nat} {x : Sess} (hj : (m.sess.set sid s')[j]? = some x) (hu : .syn c (some u) ∈ x.pend) (fu : m.now < u + ttl) :
    False := by
  rw [get_set hs] at hj
  split at hj
  · obtain rfl := Option.some.inj hj
    exact pairwise_rest Apart.symm (h.pair sid s hs) hp _ (hs'.subset hu) c t u rfl rfl hf fu
  · rename_i hne
    exact hne (h.excl sid j s x c t u hs hj (List.mem_of_getElem? hp) hu hf fu).symm

/-- The session after a valid SYN. -/
def Sess.commit (s : Sess) (i : Nat) (c : Cid) : Sess :=
  { s with pend := s.pend.eraseIdx i, cid := some c, rcid := some c }

theorem CInv.goOn {m : Mgr} (h : CInv m) {sid i : Nat} {s : Sess} {c t : Nat} (hs : m.sess[sid]? = some s)
    (hp : s.pend[i]? = some (.syn c (some t))) (hf : m.now < t + ttl) (r : Answer)
    (hb : Base (m.goOn sid { s with pend := s.pend.eraseIdx i } c r)) :
    CInv (m.goOn sid { s with pend := s.pend.eraseIdx i } c r) := by
  obtain ⟨k1, k2, k3⟩ := h.held sid s c t hs (List.mem_of_getElem? hp) hf
  have hL := h.base.loc sid s hs
  have hrun := hL.running hp
  unfold Mgr.goOn at hb ⊢
  cases r with
  | error =>
    exact h.set hs hb (fun e => by cases e) (List.nil_sublist _)
  | invalid =>
    refine h.less hb hs rfl rfl (fun e => by cases e) (List.nil_sublist _) (fun _ _ e => e) (fun _ e => e)
      (fun _ _ e _ => e) ?_ (fun _ => .inl rfl)
    intro c' t' ht' ft' ⟨j, x, hj, hx⟩
    show (m.resv.erase c).get? c' = some t'
    rw [get?_erase_ne]
    · exact ht'
    · rintro rfl
      exact h.alone hs hp hf (List.nil_sublist _) hj hx ft'
  | valid =>
    dsimp only at hb ⊢
    split
    · rename_i hrc
      rw [if_pos hrc] at hb
      refine h.less hb hs rfl rfl (fun e => by cases e) (List.nil_sublist _) (fun _ _ e => e) (fun _ e => e)
        (fun _ _ e _ => e) (fun _ _ e _ _ => e) ?_
      intro c'
      by_cases hc : c' = c
      · subst hc
        exact .inr ⟨k2, k3⟩
      · left
        exact get?_insert_ne _ _ hc
    · rename_i hrc
      rw [if_neg hrc] at hb
      have hrn : s.rcid = none := by
        cases e : s.rcid with
        | none => rfl
        | some x => exact absurd (by simp [e]) hrc
      have hcn : s.conn = false := by
        cases e : s.conn with
        | false => rfl
        | true => exact absurd hrn (hL.conn e)
      have hget : ∀ (j : Nat) (x : Sess), (m.sess.set sid (s.commit i c))[j]? = some x → (j = sid ∧ x.rcid = some c ∧ x.conn = false ∧
            x.pend = s.pend.eraseIdx i) ∨ (j ≠ sid ∧ m.sess[j]? = some x) := by
        intro j x hj
        rw [get_set hs] at hj
        split at hj
        · rename_i e
          obtain rfl := Option.some.inj hj
          exact .inl ⟨e, rfl, hcn, rfl⟩
        · rename_i e
          exact .inr ⟨e, hj⟩
      have hold : ∀ (j : Nat) (x : Sess), (m.sess.set sid (s.commit i c))[j]? = some x → ∃ y, m.sess[j]? = some y ∧ x.pend.Sublist y.pend := by
        intro j x hj
        rcases hget j x hj with ⟨rfl, -, -, e⟩ | ⟨-, hj⟩
        · exact ⟨s, hs, e ▸ List.eraseIdx_sublist _ _⟩
        · exact ⟨x, hj, List.Sublist.refl _⟩
      refine ⟨hb, ?_, ?_, ?_, ?_, ?_, ?_⟩
      · intro j x p hj hpx
        obtain ⟨y, hy, hsub⟩ := hold j x hj
        exact h.shape j y p hy (hsub.subset hpx)
      · intro j x hj
        obtain ⟨y, hy, hsub⟩ := hold j x hj
        exact (h.pair j y hy).sublist hsub
      · intro j k sj sk c' t' u hj hk htj htk ft fu
        obtain ⟨yj, hyj, hsj⟩ := hold j sj hj
        obtain ⟨yk, hyk, hsk⟩ := hold k sk hk
        exact h.excl j k yj yk c' t' u hyj hyk (hsj.subset htj) (hsk.subset htk) ft fu
      · intro j x c' t' hj ht' ft'
        obtain ⟨y, hy, hsub⟩ := hold j x hj
        obtain ⟨h1, h2, h3⟩ := h.held j y c' t' hy (hsub.subset ht') ft'
        have hcc : c' ≠ c := by
          rintro rfl
          exact h.alone hs hp hf (List.Sublist.refl _) hj ht' ft'
        refine ⟨(get?_erase_ne _ hcc).trans h1, h2, ?_⟩
        intro a k sk ha hk hek
        rcases hget k sk hk with ⟨rfl, e, -⟩ | ⟨-, hk⟩
        · rw [e]
          intro e'
          exact hcc (Option.some.inj e').symm
        · exact h3 a k sk ha hk hek
      · intro j x c' hj he hcj hrj
        rcases hget j x hj with ⟨-, -, e, -⟩ | ⟨-, hj⟩
        · rw [e] at hcj
          cases hcj
        · obtain ⟨h1, h2⟩ := h.onl j x c' hj he hcj hrj
          have hcc : c' ≠ c := by
            rintro rfl
            rw [k2] at h1
            cases h1
          exact ⟨h1, (get?_insert_ne _ _ hcc).trans h2⟩
      · intro a j x c' ha hj he hrj
        rcases hget j x hj with ⟨rfl, e, -⟩ | ⟨hne, hj'⟩
        · obtain rfl : c = c' := Option.some.inj (e.symm.trans hrj)
          refine ⟨k2, get?_insert_self _ _ _, ?_⟩
          intro b k sk hb' hk hek hrk
          rcases hget k sk hk with ⟨rfl, -⟩ | ⟨-, hk⟩
          · rfl
          · exact absurd hrk (k3 b k sk hb' hk hek)
        · have hcc : c' ≠ c := by
            rintro rfl
            exact k3 a j x ha hj' he hrj
          obtain ⟨h1, h2, h3⟩ := h.vis a j x c' ha hj' he hrj
          refine ⟨h1, (get?_insert_ne _ _ hcc).trans h2, ?_⟩
          intro b k sk hb' hk hek hrk
          rcases hget k sk hk with ⟨rfl, e, -⟩ | ⟨-, hk⟩
          · exact absurd (Option.some.inj (e.symm.trans hrk)).symm hcc
          · exact h3 b k sk hb' hk hek hrk

theorem CInv.upgrade {m : Mgr} (h : CInv m) {sid : Nat} {s : Sess} {c : Cid} (hs : m.sess[sid]? = some s)
    (he : s.ended = false) (hr : s.rcid = some c) (hb : Base (m.upgrade sid s c)) : CInv (m.upgrade sid s c) := by
  unfold Mgr.upgrade at hb ⊢
  split
  · rename_i hn
    rw [hn] at hb
    exact h.set hs hb (fun e => by cases e) (List.nil_sublist _)
  · rename_i i hpa
    rw [hpa] at hb
    dsimp only at hb
    obtain rfl := h.base.own hs he hpa
    obtain ⟨v1, v2, v3⟩ := h.vis s.addr i s c hpa hs he hr
    have hget : ∀ (j : Nat) (x : Sess), (m.sess.set i ({ s with conn := true }.suspend (.conn c)))[j]? = some x →
        ∃ y, m.sess[j]? = some y ∧ x.ended = y.ended ∧ x.rcid = y.rcid ∧ (j ≠ i → x.conn = y.conn) ∧
          ((x.pend = y.pend) ∨ x.pend = y.pend ++ [.conn c]) := by
      intro j x hx
      rw [get_set hs] at hx
      split at hx
      · rename_i e
        obtain rfl := Option.some.inj hx
        exact ⟨s, e ▸ hs, rfl, rfl, fun e' => absurd e e', .inr rfl⟩
      · exact ⟨x, hx, rfl, rfl, fun _ => rfl, .inl rfl⟩
    have hsyn : ∀ (j : Nat) (x : Sess) (c' t : Nat), (m.sess.set i ({ s with conn := true }.suspend (.conn c)))[j]? = some x →
        .syn c' (some t) ∈ x.pend → ∃ y, m.sess[j]? = some y ∧ .syn c' (some t) ∈ y.pend := by
      intro j x c' t hx ht
      obtain ⟨y, hy, -, -, -, hp⟩ := hget j x hx
      refine ⟨y, hy, ?_⟩
      rcases hp with hp | hp
      · exact hp ▸ ht
      · rw [hp, List.mem_append, List.mem_singleton] at ht
        rcases ht with ht | ht
        · exact ht
        · cases ht
    refine ⟨hb, ?_, ?_, ?_, ?_, ?_, ?_⟩
    · intro j x p hx hpx
      obtain ⟨y, hy, -, -, -, hp⟩ := hget j x hx
      rcases hp with hp | hp
      · exact h.shape j y p hy (hp ▸ hpx)
      · rw [hp, List.mem_append, List.mem_singleton] at hpx
        rcases hpx with hpx | rfl
        · exact h.shape j y p hy hpx
        · exact .inr ⟨c, rfl⟩
    · intro j x hx
      obtain ⟨y, hy, -, -, -, hp⟩ := hget j x hx
      rcases hp with hp | hp
      · rw [hp]
        exact h.pair j y hy
      · rw [hp, List.pairwise_append]
        refine ⟨h.pair j y hy, List.pairwise_singleton _ _, ?_⟩
        intro p _ q hq
        rw [List.mem_singleton] at hq
        subst hq
        intro c' t u _ e2
        cases e2
    · intro j k sj sk c' t u hj hk htj htk ft fu
      obtain ⟨yj, hyj, htj⟩ := hsyn j sj c' t hj htj
      obtain ⟨yk, hyk, htk⟩ := hsyn k sk c' u hk htk
      exact h.excl j k yj yk c' t u hyj hyk htj htk ft fu
    · intro j x c' t hj ht ft
      obtain ⟨y, hy, ht⟩ := hsyn j x c' t hj ht
      obtain ⟨h1, h2, h3⟩ := h.held j y c' t hy ht ft
      have hcc : c' ≠ c := by
        rintro rfl
        exact h3 s.addr i s hpa hs he hr
      refine ⟨h1, (get?_insert_ne _ _ hcc).trans h2, ?_⟩
      intro a k sk ha hk hek
      obtain ⟨yk, hyk, e1, e2, -⟩ := hget k sk hk
      rw [e2]
      exact h3 a k yk (sub_erase ha).1 hyk (e1 ▸ hek)
    · intro j x c' hj hej hcj hrj
      obtain ⟨y, hy, e1, e2, e3, -⟩ := hget j x hj
      by_cases hji : j = i
      · subst hji
        obtain rfl : s = y := Option.some.inj (hs.symm.trans hy)
        obtain rfl : c = c' := Option.some.inj (hr.symm.trans (e2 ▸ hrj))
        exact ⟨get?_insert_self _ _ _, v2⟩
      · obtain ⟨h1, h2⟩ := h.onl j y c' hy (e1 ▸ hej) (e3 hji ▸ hcj) (e2 ▸ hrj)
        have hcc : c' ≠ c := by
          rintro rfl
          rw [v1] at h1
          cases h1
        exact ⟨(get?_insert_ne _ _ hcc).trans h1, h2⟩
    · intro a j x c' ha hj hej hrj
      obtain ⟨y, hy, e1, e2, -⟩ := hget j x hj
      obtain ⟨ha1, ha2⟩ := sub_erase ha
      obtain ⟨h1, h2, h3⟩ := h.vis a j y c' ha1 hy (e1 ▸ hej) (e2 ▸ hrj)
      have hji : j ≠ i := by
        rintro rfl
        obtain ⟨z, hz, ea, -⟩ := h.base.prov a j ha1
        obtain rfl : s = z := Option.some.inj (hs.symm.trans hz)
        exact ha2 ea.symm
      have hcc : c' ≠ c := by
        rintro rfl
        exact hji (v3 a j y ha1 hy (e1 ▸ hej) (e2 ▸ hrj))
      refine ⟨(get?_insert_ne _ _ hcc).trans h1, h2, ?_⟩
      intro b k sk hb' hk hek hrk
      obtain ⟨yk, hyk, g1, g2, -⟩ := hget k sk hk
      exact h3 b k yk (sub_erase hb').1 hyk (g1 ▸ hek) (g2 ▸ hrk)

theorem clearProv_online (m : Mgr) (sid addr : Nat) : (m.clearProv sid addr).online = m.online := by
  unfold Mgr.clearProv
  split <;> rfl

theorem cleared_rest (m : Mgr) (sid : Nat) (s : Sess) (panic : Bool) :
    (m.cleared sid s panic).resv = m.resv ∧ (m.cleared sid s panic).crypto = m.crypto ∧
      (m.cleared sid s panic).now = m.now ∧ ∀ c, (m.cleared sid s panic).online.get? c = m.online.get? c ∨
        (m.online.get? c = some sid ∧ (m.cleared sid s panic).online.get? c = none ∧ s.cid = some c ∧ panic = false) := by
  unfold Mgr.cleared Mgr.clearProv
  have : (m.clearOnline sid s panic).resv = m.resv ∧ (m.clearOnline sid s panic).crypto = m.crypto ∧
      (m.clearOnline sid s panic).now = m.now ∧ ∀ c, (m.clearOnline sid s panic).online.get? c = m.online.get? c ∨
        (m.online.get? c = some sid ∧ (m.clearOnline sid s panic).online.get? c = none ∧ s.cid = some c ∧ panic = false) := by
    unfold Mgr.clearOnline
    split
    · rename_i c hc
      unfold Mgr.clearSession
      split
      · rename_i ho
        refine ⟨rfl, rfl, rfl, ?_⟩
        intro c'
        by_cases e : c' = c
        · subst e
          exact .inr ⟨ho, get?_erase_self _ _, hc, rfl⟩
        · exact .inl (get?_erase_ne _ e)
      · exact ⟨rfl, rfl, rfl, fun _ => .inl rfl⟩
    · exact ⟨rfl, rfl, rfl, fun _ => .inl rfl⟩
  split
  · exact this
  · exact this

theorem CInv.step {m : Mgr} (h : CInv m) {ev : Ev} (ha : m.Allowed ev) (hc : m.Calm ev) : CInv (m.step ev) := by
  have hb := h.base.step ha
  cases ev with
  | accept addr =>
    have hnew : ∀ (i : Nat) (s : Sess), (m.sess ++ [({ addr := addr } : Sess)])[i]? = some s →
        m.sess[i]? = some s ∨ (i = m.sess.length ∧ s = { addr := addr }) := by
      intro i s hi
      rw [List.getElem?_append] at hi
      split at hi
      · exact .inl hi
      · rename_i hge
        have : i - m.sess.length = 0 := by
          cases hd : i - m.sess.length with
          | zero => rfl
          | succ n =>
            rw [hd] at hi
            cases hi
        rw [this] at hi
        exact .inr ⟨by omega, (Option.some.inj hi).symm⟩
    have hprov : ∀ (a i : Nat) (s : Sess) (c : Cid), (m.prov.insert addr m.sess.length).get? a = some i →
        (m.sess ++ [({ addr := addr } : Sess)])[i]? = some s → s.rcid = some c →
        m.prov.get? a = some i ∧ m.sess[i]? = some s := by
      intro a i s c hp hi hr
      rcases hnew i s hi with hi | ⟨rfl, rfl⟩
      · refine ⟨?_, hi⟩
        rw [get?_insert] at hp
        split at hp
        · obtain rfl := Option.some.inj hp
          have := (List.getElem?_eq_some_iff.mp hi).1
          omega
        · exact hp
      · cases hr
    refine ⟨hb, ?_, ?_, ?_, ?_, ?_, ?_⟩
    · intro i s p hi hp
      rcases hnew i s hi with hi | ⟨-, rfl⟩
      · exact h.shape i s p hi hp
      · cases hp
    · intro i s hi
      rcases hnew i s hi with hi | ⟨-, rfl⟩
      · exact h.pair i s hi
      · exact List.Pairwise.nil
    · intro i j si sj c t u hi hj hti htj ft fu
      rcases hnew i si hi with hi | ⟨-, rfl⟩
      · rcases hnew j sj hj with hj | ⟨-, rfl⟩
        · exact h.excl i j si sj c t u hi hj hti htj ft fu
        · cases htj
      · cases hti
    · intro i s c t hi ht ft
      rcases hnew i s hi with hi | ⟨-, rfl⟩
      · obtain ⟨h1, h2, h3⟩ := h.held i s c t hi ht ft
        refine ⟨h1, h2, ?_⟩
        intro a j sj hp hj he hr
        obtain ⟨g1, g2⟩ := hprov a j sj c hp hj hr
        exact h3 a j sj g1 g2 he hr
      · cases ht
    · intro i s c hi he hcn hr
      rcases hnew i s hi with hi | ⟨-, rfl⟩
      · exact h.onl i s c hi he hcn hr
      · cases hcn
    · intro a i s c hp hi he hr
      obtain ⟨g1, g2⟩ := hprov a i s c hp hi hr
      obtain ⟨h1, h2, h3⟩ := h.vis a i s c g1 g2 he hr
      refine ⟨h1, h2, ?_⟩
      intro b j sj hpb hj hej hrj
      obtain ⟨f1, f2⟩ := hprov b j sj c hpb hj hrj
      exact h3 b j sj f1 f2 hej hrj
  | syn sid c k =>
    simp only [Mgr.step] at hb ⊢
    cases hs : m.sess[sid]? with
    | none => exact h
    | some s =>
      rw [hs] at hb
      dsimp only at hb ⊢
      split
      · exact h
      · rename_i hg
        rw [if_neg hg] at hb
        unfold Mgr.syn at hb ⊢
        dsimp only at hb ⊢
        have hfeq : ({ m with resv := m.fresh } : Mgr).find c k = m.find c k := rfl
        rw [hfeq] at hb ⊢
        cases hf : m.find c k with
        | some i =>
          rw [hf] at hb
          dsimp only at hb ⊢
          cases hx : m.sess[i]? with
          | none => exact h.fresh
          | some x =>
            rw [hx] at hb
            dsimp only at hb ⊢
            have hd : x.st ≠ .disconnecting := hc i x hf hx
            rw [if_pos hd] at hb ⊢
            exact h.fresh.set hs hb (fun e => by cases e) (List.nil_sublist _)
        | none =>
          rw [hf] at hb
          dsimp only at hb ⊢
          split
          · rename_i hr
            rw [if_pos hr] at hb
            exact h.fresh.set hs hb (fun e => by cases e) (List.nil_sublist _)
          · rename_i hr
            rw [if_neg hr] at hb
            refine h.reserve hs hb hf ?_
            cases e : m.fresh.get? c with
            | none => rfl
            | some t => exact absurd (by rw [e]; rfl) hr
  | wake sid i =>
    simp only [Mgr.step]
    split
    · exact h
    · rename_i s hs
      split
      · rename_i c on tok hp
        rcases h.shape sid s _ hs (List.mem_of_getElem? hp) with ⟨_, _, e⟩ | ⟨_, e⟩ <;> cases e
      · exact h
  | timeout sid i =>
    simp only [Mgr.step]
    split
    · exact h
    · rename_i s hs
      split
      · rename_i c on tok hp
        rcases h.shape sid s _ hs (List.mem_of_getElem? hp) with ⟨_, _, e⟩ | ⟨_, e⟩ <;> cases e
      · exact h
  | goOn sid i r =>
    simp only [Mgr.step] at hb ⊢
    split
    · exact h
    · rename_i s hs
      rw [hs] at hb
      dsimp only at hb
      split
      · rename_i c o hp
        rw [hp] at hb
        dsimp only at hb
        rcases h.shape sid s _ hs (List.mem_of_getElem? hp) with ⟨c', t, e⟩ | ⟨_, e⟩
        · cases e
          exact h.goOn hs hp (hc s c t hs hp) r hb
        · cases e
      · exact h
  | connect sid =>
    simp only [Mgr.step] at hb ⊢
    split
    · exact h
    · rename_i s hs
      rw [hs] at hb
      dsimp only at hb
      split
      · exact h
      · rename_i c hr
        rw [hr] at hb
        dsimp only at hb
        split
        · exact h
        · rename_i hg
          rw [if_neg hg] at hb
          refine h.upgrade hs ?_ hr hb
          cases he : s.ended with
          | false => rfl
          | true => exact absurd (Or.inl he) hg
  | connected sid i ok =>
    simp only [Mgr.step] at hb ⊢
    split
    · exact h
    · rename_i s hs
      rw [hs] at hb
      dsimp only at hb
      split
      · rename_i c hp
        rw [hp] at hb
        dsimp only at hb
        split
        · rename_i hok
          rw [if_pos hok] at hb
          exact h.set hs hb (fun e => ⟨e, rfl, rfl⟩) (List.eraseIdx_sublist _ _)
        · rename_i hok
          rw [if_neg hok] at hb
          exact h.set hs hb (fun e => by cases e) (List.nil_sublist _)
      · exact h
  | disc sid =>
    simp only [Mgr.step] at hb ⊢
    split
    · exact h
    · rename_i s hs
      rw [hs] at hb
      dsimp only at hb
      split
      · exact h
      · rename_i hg
        rw [if_neg hg] at hb
        exact h.set hs hb (fun e => ⟨e, rfl, rfl⟩) (List.Sublist.refl _)
  | reset sid =>
    simp only [Mgr.step] at hb ⊢
    split
    · exact h
    · rename_i s hs
      rw [hs] at hb
      dsimp only at hb
      split
      · exact h
      · rename_i hg
        rw [if_neg hg] at hb
        exact h.set hs hb (fun e => ⟨e, rfl, rfl⟩) (List.Sublist.refl _)
  | failure sid =>
    simp only [Mgr.step] at hb ⊢
    split
    · exact h
    · rename_i s hs
      rw [hs] at hb
      dsimp only at hb
      split
      · exact h
      · rename_i hg
        rw [if_neg hg] at hb
        exact h.set hs hb (fun e => by cases e) (List.nil_sublist _)
  | regFail sid =>
    simp only [Mgr.step] at hb ⊢
    split
    · exact h
    · rename_i s hs
      rw [hs] at hb
      dsimp only at hb
      split
      · exact h
      · rename_i hg
        rw [if_neg hg] at hb
        have hself : m.sess = m.sess.set sid s := by
          apply List.ext_getElem?
          intro j
          rw [get_set hs]
          split
          · rename_i e
            rw [e, hs]
          · rfl
        refine h.less hb hs (s' := s) ((clearProv_sess _ _ _).trans hself) ?_ (fun e => ⟨e, rfl, rfl⟩) (List.Sublist.refl _)
          (fun a i e => prov_sub_clear e) ?_ ?_ ?_ ?_
        · unfold Mgr.clearProv
          split <;> rfl
        · intro c e
          rw [clearProv_online]
          exact e
        · intro c j e _
          rw [clearProv_online]
          exact e
        · intro c t e _ _
          unfold Mgr.clearProv
          split
          · exact e
          · exact e
        · intro c
          left
          unfold Mgr.clearProv
          split <;> rfl
  | finish sid panic =>
    cases hs : m.sess[sid]? with
    | none =>
      have : m.step (.finish sid panic) = m := by
        simp only [Mgr.step]
        rw [hs]
      rw [this]
      exact h
    | some s =>
      cases ho : s.over with
      | true =>
        have : m.step (.finish sid panic) = m := by
          simp only [Mgr.step]
          rw [hs]
          simp only [ho, if_true]
        rw [this]
        exact h
      | false =>
        rw [finish_eq hs ho] at hb ⊢
        obtain ⟨r1, r2, r3, r4⟩ := cleared_rest m sid s panic
        refine h.less hb hs (s' := s.gone) (by rw [← cleared_sess m sid s panic]; rfl) r3 (fun e => by cases e)
          (List.nil_sublist _) (fun a i e => (cleared_prov h.base hs e).1) ?_ ?_ ?_ ?_
        · intro c e
          rcases r4 c with r | ⟨r, -⟩
          · exact r.trans e
          · rw [e] at r
            cases r
        · intro c j e hj
          rcases r4 c with r | ⟨r, -⟩
          · exact r.trans e
          · obtain rfl := Option.some.inj (r.symm.trans e)
            exact absurd (hj rfl) (by simp [Sess.gone, Sess.halt])
        · intro c t e _ _
          show (m.cleared sid s panic).resv.get? c = some t
          rw [r1]
          exact e
        · intro c
          left
          show (m.cleared sid s panic).crypto.get? c = _
          rw [r2]
  | tick n =>
    refine ⟨hb, h.shape, ?_, ?_, ?_, h.onl, h.vis⟩
    · intro i s hi
      refine (h.pair i s hi).imp ?_
      intro p q hpq c t u e1 e2 f1 f2
      exact hpq c t u e1 e2 (Nat.lt_of_le_of_lt (Nat.le_add_right _ _) f1) (Nat.lt_of_le_of_lt (Nat.le_add_right _ _) f2)
    · intro i j si sj c t u hi hj hti htj f1 f2
      exact h.excl i j si sj c t u hi hj hti htj (Nat.lt_of_le_of_lt (Nat.le_add_right _ _) f1)
        (Nat.lt_of_le_of_lt (Nat.le_add_right _ _) f2)
    · intro i s c t hi ht ft
      exact h.held i s c t hi ht (Nat.lt_of_le_of_lt (Nat.le_add_right _ _) ft)

theorem RunWith.calm {evs : List Ev} {m : Mgr} (h : RunWith Mgr.Calm evs m) : CInv m := by
  induction h with
  | init => exact CInv.init
  | step _ ha hc ih => exact ih.step ha hc

end Verif.Sessions

import Verif.Transfer.Model
/-
The invariant of a transfer.
-/
namespace Verif.Transfer

/-- The number of groups after which the receiver regards the file as complete. -/
def Cfg.stop (c : Cfg) : Nat := max 1 (c.n - c.start)

/-- The receiver after `k` groups and `m` further messages. -/
def rAt (c : Cfg) (k m : Nat) : Rcv :=
  { file := decide (k < c.stop)
    groups := fun gid =>
      if 1 ≤ m ∧ k < c.stop ∧ gid = c.start + k then some ((c.waves k).length, (c.waves k).take (m - 1)) else none
    disk := (c.groups.take k).map List.flatten
    done := if k = c.stop then some (c.start + k - 1) else none
    err := false }

/-- The messages of a group, with or without its waves. -/
def full (c : Cfg) (i : Nat) (sent : Bool) : List Down :=
  .hdr (c.start + i) (c.waves i).length :: (if sent then (c.waves i).map (.wave (c.start + i)) else [])

/-- The waves of group `i` received at the position `k`, `m`. -/
def got (c : Cfg) (k m i : Nat) : Nat := if i < k then (c.waves i).length else if i = k then m - 1 else 0

/-- The acknowledgement the backend still has to send. -/
def held (c : Cfg) (x : St) (i : Nat) : Nat := if x.r.done = some (c.start + i) ∧ x.reported = false then 1 else 0

structure Inv (c : Cfg) (x : St) (k m : Nat) (sent : Bool) (a : Nat → Nat) : Prop where
  hr : x.r = rAt c k m
  hk : k ≤ c.stop
  hm : m ≤ (c.waves k).length
  hmF : k = c.stop → m ≤ 1
  pos : (k = x.s.nxt ∧ m = 0 ∧ x.toR = [] ∧ sent = true) ∨
    (k + 1 = x.s.nxt ∧ x.toR = (full c k sent).drop m ∧ (sent = true → 1 ≤ m ∧ k < c.stop) ∧
      (sent = false → m ≤ 1)) ∨
    (k + 2 = x.s.nxt ∧ 2 ≤ m ∧ sent = false ∧
      x.toR = (full c k true).drop m ++ [.hdr (c.start + (k + 1)) (c.waves (k + 1)).length])
  cnt : ∀ i, x.toS.count (.wack (c.start + i)) + a i + held c x i = got c k m i
  hT : ∀ i, x.toS.count (.hack (c.start + i) true) =
    if i + 1 = x.s.nxt ∧ sent = false ∧ i = k ∧ 1 ≤ m ∧ i < c.stop then 1 else 0
  hF : ∀ i, x.toS.count (.hack (c.start + i) false) =
    if i = c.stop ∧ k = c.stop ∧ m = 1 ∧ x.s.rejected = false then 1 else 0
  gids : ∀ u ∈ x.toS, c.start ≤ u.gid
  rej : x.s.rejected = true → k = c.stop ∧ m = 1
  rep : x.reported = true → k = c.stop
  tr : ∀ i, x.s.trans (c.start + i) =
    if i < x.s.nxt ∧ a i < (c.waves i).length ∧ ¬ (x.s.rejected = true ∧ i = c.stop) then
      some ⟨i, a i, decide (i + 1 = x.s.nxt ∧ x.s.wait = true ∧ x.s.tokens = 0)⟩ else none
  tok : x.s.tokens ≤ 1
  tokw : x.s.wait = false → x.s.tokens = 0
  tok2 : ∀ g, g + 1 = x.s.nxt → (x.s.wait = false ∨ x.s.tokens = 1) → 1 ≤ a g
  tok3 : ∀ g, g + 1 = x.s.nxt → x.s.wait = true → x.s.tokens = 0 → a g < (c.waves g).length
  w0 : x.s.nxt = 0 → x.s.wait = false
  nx : x.s.nxt ≤ c.n
  said : Status.complete ∈ x.s.said ↔ 0 < c.n ∧ a (c.n - 1) = (c.waves (c.n - 1)).length
  pan : x.s.panicked = false
  hook : x.s.hook = true → x.s.nxt = c.n ∧ x.s.wait = false

theorem stop_pos (c : Cfg) : 1 ≤ c.stop := Nat.le_max_left _ _

theorem stop_le (c : Cfg) (h : 0 < c.n) : c.stop ≤ c.n := by unfold Cfg.stop; omega

theorem waves_pos {c : Cfg} (h : c.WF) {i : Nat} (hi : i < c.n) : 0 < (c.waves i).length := by
  have : c.waves i ∈ c.groups := by
    simp only [Cfg.waves, List.getD_eq_getElem?_getD, List.getElem?_eq_getElem (show i < c.groups.length from hi),
      Option.getD_some]
    exact List.getElem_mem _
  exact List.length_pos_iff.mpr (h _ this).1

theorem rAt_zero (c : Cfg) : init.r = rAt c 0 0 := by
  have := stop_pos c
  simp only [init, rAt]
  congr 1 <;> first | (funext g; simp) | (simp; omega) | rfl

theorem inv_init (c : Cfg) (hW : c.WF) : Inv c init 0 0 true (fun _ => 0) where
  hr := rAt_zero c
  hk := Nat.zero_le _
  hm := Nat.zero_le _
  hmF := fun _ => Nat.zero_le _
  pos := .inl ⟨rfl, rfl, rfl, rfl⟩
  cnt := fun i => by simp [init, held, got]
  hT := fun i => by simp [init]
  hF := fun i => by simp [init]
  gids := fun u hu => by simp [init] at hu
  rej := fun h => by simp [init] at h
  rep := fun h => by simp [init] at h
  tr := fun i => by simp [init]
  tok := by simp [init]
  tokw := fun _ => rfl
  tok2 := fun g h => by simp [init] at h
  tok3 := fun g h => by simp [init] at h
  w0 := fun _ => rfl
  nx := Nat.zero_le _
  said := by
    simp only [init, List.not_mem_nil, false_iff, not_and]
    intro h h'
    have := waves_pos hW (i := c.n - 1) (by omega)
    omega
  pan := rfl
  hook := fun h => by simp [init] at h

/-! ### The receiver -/

theorem recv_hdr_ok (c : Cfg) {k : Nat} (hk : k < c.stop) (w : Nat) (hw : w = (c.waves k).length) :
    recv c.n (rAt c k 0) (.hdr (c.start + k) w) = (rAt c k 1, [.hack (c.start + k) true]) := by
  subst hw
  simp only [recv, rAt, hk]
  simp
  funext g
  simp only [upd]

theorem recv_hdr_no (c : Cfg) (w : Nat) :
    recv c.n (rAt c c.stop 0) (.hdr (c.start + c.stop) w) = (rAt c c.stop 1, [.hack (c.start + c.stop) false]) := by
  simp only [recv, rAt]
  simp

theorem take_flat (c : Cfg) {k : Nat} (hk : k < c.n) :
    (c.groups.take (k + 1)).map List.flatten = (c.groups.take k).map List.flatten ++ [(c.waves k).flatten] := by
  have hk' : k < c.groups.length := hk
  rw [List.take_add_one, List.map_append]
  simp [Cfg.waves, List.getElem?_eq_getElem hk']

theorem recv_wave_mid (c : Cfg) {k m : Nat} (hk : k < c.stop) (hm : 1 ≤ m) (hl : m < (c.waves k).length) (b : Bytes)
    (hb : (c.waves k)[m - 1]? = some b) :
    recv c.n (rAt c k m) (.wave (c.start + k) b) = (rAt c k (m + 1), [.wack (c.start + k)]) := by
  have h1 : ((c.waves k).take (m - 1)).length + 1 ≠ (c.waves k).length := by
    rw [List.length_take]; omega
  have h2 : (c.waves k).take (m - 1) ++ [b] = (c.waves k).take m := by
    have := List.take_add_one (l := c.waves k) (i := m - 1)
    rw [hb] at this
    rw [show m = m - 1 + 1 by omega, this]; rfl
  simp only [recv, rAt, hk, hm, and_self, if_true]
  rw [if_neg h1, h2]
  refine Prod.ext ?_ rfl
  simp only
  congr 1
  funext g
  simp only [upd, Nat.add_sub_cancel, true_and]
  split <;> simp_all

theorem recv_wave_last (c : Cfg) {k m : Nat} (hn : k < c.n) (hk : k < c.stop) (hm : 1 ≤ m)
    (hl : m = (c.waves k).length) (b : Bytes) (hb : (c.waves k)[m - 1]? = some b) :
    recv c.n (rAt c k m) (.wave (c.start + k) b) =
      (rAt c (k + 1) 0, if k + 1 = c.stop then [] else [.wack (c.start + k)]) := by
  have h1 : ((c.waves k).take (m - 1)).length + 1 = (c.waves k).length := by
    rw [List.length_take]; omega
  have h2 : (c.waves k).take (m - 1) ++ [b] = c.waves k := by
    have := List.take_add_one (l := c.waves k) (i := m - 1)
    rw [hb] at this
    have h3 : m - 1 + 1 = (c.waves k).length := by omega
    rw [h3, List.take_length] at this
    exact this.symm
  have h4 : (c.start + k ≥ c.n - 1) ↔ k + 1 = c.stop := by
    unfold Cfg.stop at *; omega
  simp only [recv, rAt, hk, hm, and_self, if_true, decide_true]
  rw [if_pos h1, h2]
  by_cases hs : k + 1 = c.stop
  · rw [if_pos (h4.mpr hs), if_pos hs, take_flat c hn]
    refine Prod.ext ?_ (by simp [hs])
    simp only
    congr 1
    · simp; omega
    · funext g
      simp only [upd]
      split <;> simp_all
  · rw [if_neg (fun h => hs (h4.mp h)), if_neg hs, take_flat c hn]
    refine Prod.ext ?_ (by simp [hs])
    simp only
    congr 1
    · simp; omega
    · funext g
      simp only [upd]
      split <;> simp_all
    · simp <;> omega

/-! ### Preservation -/

theorem full_len (c : Cfg) (i : Nat) : (full c i true).length = (c.waves i).length + 1 := by simp [full]

theorem full_false_drop (c : Cfg) (i m : Nat) (h : 1 ≤ m) : (full c i false).drop m = [] := by
  apply List.drop_eq_nil_of_le; simp [full]; omega

theorem full_drop_cons (c : Cfg) (i m : Nat) (h : 1 ≤ m) (hl : m ≤ (c.waves i).length) :
    ∃ b, (c.waves i)[m - 1]? = some b ∧
      (full c i true).drop m = .wave (c.start + i) b :: (full c i true).drop (m + 1) := by
  have h1 : m - 1 < (c.waves i).length := by omega
  have h2 : m < (full c i true).length := by rw [full_len]; omega
  refine ⟨(c.waves i)[m - 1], List.getElem?_eq_getElem h1, ?_⟩
  rw [List.drop_eq_getElem_cons h2]
  congr 1
  obtain ⟨m', rfl⟩ : ∃ m', m = m' + 1 := ⟨m - 1, by omega⟩
  simp [full]

theorem inv_send {c : Cfg} (hW : c.WF) {x : St} {k m : Nat} {sent : Bool} {a : Nat → Nat}
    (I : Inv c x k m sent a) (hw : x.s.wait = false) (hn : x.s.nxt < c.n) :
    Inv c { x with
        s := { x.s with
          nxt := x.s.nxt + 1, wait := true
          trans := upd x.s.trans (c.start + x.s.nxt) (some ⟨x.s.nxt, 0, true⟩) }
        toR := x.toR ++ [.hdr (c.start + x.s.nxt) (c.waves x.s.nxt).length] } k m false a := by
  have ht0 : x.s.tokens = 0 := I.tokw hw
  -- the last group has been acknowledged in part
  have hgot : ∀ g, g + 1 = x.s.nxt → 1 ≤ got c k m g := fun g hg => by
    have := I.tok2 g hg (.inl hw); have := I.cnt g; omega
  have hpos : (k = x.s.nxt ∧ m = 0 ∧ x.toR = [] ∧ sent = true) ∨
      (k + 1 = x.s.nxt ∧ 2 ≤ m ∧ sent = true ∧ x.toR = (full c k true).drop m) := by
    rcases I.pos with h | ⟨h, h', _, h''⟩ | ⟨h, h', h'', _⟩
    · exact .inl h
    · right
      have h1 := hgot k h
      have h2 : 2 ≤ m := by simp [got] at h1; omega
      cases sent with
      | true => exact ⟨h, h2, rfl, h'⟩
      | false => have := h'' rfl; omega
    · exfalso
      have := hgot (k + 1) (by omega)
      simp only [got] at this
      split at this
      · omega
      · split at this <;> omega
  have hsent : sent = true := by rcases hpos with h | h <;> simp_all
  have hg0 : got c k m x.s.nxt = 0 := by
    unfold got
    rcases hpos with h | h
    · rw [if_neg (by omega), if_pos (by omega)]; omega
    · rw [if_neg (by omega), if_neg (by omega)]
  have ha0 : a x.s.nxt = 0 := by have := I.cnt x.s.nxt; omega
  have hwn := waves_pos hW hn
  exact {
    hr := I.hr, hk := I.hk, hm := I.hm, hmF := I.hmF
    pos := by
      rcases hpos with ⟨h, h', h'', _⟩ | ⟨h, h', _, h''⟩
      · right; left
        refine ⟨by simp [h], ?_, by simp, fun _ => by omega⟩
        simp [h'', h', full, h]
      · right; right
        refine ⟨by simp only; omega, h', rfl, ?_⟩
        simp only
        rw [h'', ← h]
    cnt := I.cnt
    hT := fun i => by
      have := I.hT i
      simp only [hsent, Bool.true_eq_false, false_and, and_false, if_false] at this
      simp only
      rw [this, if_neg]
      rintro ⟨h1, _, h2, h3, _⟩
      rcases hpos with h | h <;> omega
    hF := I.hF, gids := I.gids, rej := I.rej, rep := I.rep
    tr := fun i => by
      have := I.tr i
      simp only [upd]
      by_cases hi : i = x.s.nxt
      · subst hi
        have hr : ¬ (x.s.rejected = true ∧ x.s.nxt = c.stop) := by
          rintro ⟨h1, h2⟩
          have := I.rej h1
          rcases hpos with h | h <;> omega
        rw [if_pos rfl, if_pos ⟨by omega, by omega, hr⟩, ha0]
        simp [ht0]
      · rw [if_neg (by omega), this]
        have e1 : (i < x.s.nxt + 1) ↔ i < x.s.nxt := by omega
        simp only [e1]
        split
        · simp [hw, hi]
        · rfl
    tok := I.tok
    tokw := fun h => by simp at h
    tok2 := fun g hg h => by simp [ht0] at h
    tok3 := fun g hg _ _ => by
      simp only at hg
      obtain rfl : g = x.s.nxt := by omega
      omega
    w0 := fun h => by simp at h
    nx := by simp only; omega
    said := I.said, pan := I.pan
    hook := fun h => by have := I.hook h; omega }

theorem inv_wake {c : Cfg} {x : St} {k m : Nat} {sent : Bool} {a : Nat → Nat}
    (I : Inv c x k m sent a) (ht : 0 < x.s.tokens) :
    Inv c { x with s := { x.s with wait := false, tokens := x.s.tokens - 1 } } k m sent a := by
  have h1 : x.s.tokens = 1 := by have := I.tok; omega
  exact {
    hr := I.hr, hk := I.hk, hm := I.hm, hmF := I.hmF, pos := I.pos, cnt := I.cnt, hT := I.hT, hF := I.hF
    gids := I.gids, rej := I.rej, rep := I.rep
    tr := fun i => by
      have := I.tr i
      simp only [h1] at this ⊢
      simpa using this
    tok := by simp only; omega
    tokw := fun _ => by simp only; omega
    tok2 := fun g hg _ => I.tok2 g hg (.inr h1)
    tok3 := fun g hg h => by simp at h
    w0 := fun _ => rfl
    nx := I.nx, said := I.said, pan := I.pan
    hook := fun h => ⟨(I.hook h).1, rfl⟩ }

theorem inv_hook {c : Cfg} {x : St} {k m : Nat} {sent : Bool} {a : Nat → Nat}
    (I : Inv c x k m sent a) (hw : x.s.wait = false) (hn : x.s.nxt = c.n) :
    Inv c { x with s := { x.s with hook := true } } k m sent a :=
  { hr := I.hr, hk := I.hk, hm := I.hm, hmF := I.hmF, pos := I.pos, cnt := I.cnt, hT := I.hT, hF := I.hF
    gids := I.gids, rej := I.rej, rep := I.rep, tr := I.tr, tok := I.tok, tokw := I.tokw, tok2 := I.tok2, tok3 := I.tok3
    w0 := I.w0, nx := I.nx, said := I.said, pan := I.pan, hook := fun _ => ⟨hn, hw⟩ }

theorem inv_finish {c : Cfg} {x : St} {k m : Nat} {sent : Bool} {a : Nat → Nat} {gid : Nat}
    (I : Inv c x k m sent a) (h : x.r.done = some gid) (hr : x.reported = false) :
    Inv c { x with reported := true, toS := x.toS ++ [.wack gid] } k m sent a := by
  have hgid : k = c.stop ∧ gid = c.start + (c.stop - 1) := by
    have := h
    rw [I.hr] at this
    have hs := stop_pos c
    simp only [rAt] at this
    split at this
    · rename_i hk
      simp only [Option.some.injEq] at this
      exact ⟨hk, by omega⟩
    · simp at this
  exact {
    hr := I.hr, hk := I.hk, hm := I.hm, hmF := I.hmF, pos := I.pos
    cnt := fun i => by
      have := I.cnt i
      simp only [held, h, hr, List.count_append] at this ⊢
      simp only [List.count_cons, List.count_nil, Bool.true_eq_false, and_false, if_false, and_true,
        Option.some.injEq] at this ⊢
      by_cases e : gid = c.start + i
      · simp [e] at this ⊢; omega
      · simp [e] at this ⊢; omega
    hT := fun i => by
      have := I.hT i
      simp only [List.count_append]
      simpa using this
    hF := fun i => by
      have := I.hF i
      simp only [List.count_append]
      simpa using this
    gids := fun u hu => by
      simp only [List.mem_append, List.mem_singleton] at hu
      rcases hu with hu | rfl
      · exact I.gids u hu
      · simp only [Up.gid]; omega
    rej := I.rej, rep := fun _ => hgid.1, tr := I.tr, tok := I.tok, tokw := I.tokw, tok2 := I.tok2, tok3 := I.tok3
    w0 := I.w0, nx := I.nx, said := I.said, pan := I.pan, hook := I.hook }

theorem held_lt {c : Cfg} {x : St} {k m : Nat} {sent : Bool} {a : Nat → Nat} (I : Inv c x k m sent a)
    (hk : k < c.stop) (i : Nat) : held c x i = 0 := by
  unfold held
  rw [I.hr]
  have : k ≠ c.stop := by omega
  simp [rAt, this]

theorem inv_recv_hdr {c : Cfg} (hW : c.WF) {x : St} {k : Nat} {a : Nat → Nat} {rest : List Down} {mm : Down}
    (I : Inv c x k 0 false a) (hn : k + 1 = x.s.nxt) (hx : x.toR = mm :: rest) :
    Inv c { x with r := (recv c.n x.r mm).1, toR := rest, toS := x.toS ++ (recv c.n x.r mm).2 } k 1 false a := by
  have hkn : k < c.n := by have := I.nx; omega
  have hw := waves_pos hW hkn
  have hx' : mm = .hdr (c.start + k) (c.waves k).length ∧ rest = [] := by
    rcases I.pos with ⟨h, _⟩ | ⟨_, h, _⟩ | ⟨_, h, _⟩
    · omega
    · rw [h] at hx
      simp [full] at hx
      exact ⟨hx.1.symm, hx.2⟩
    · omega
  obtain ⟨rfl, rfl⟩ := hx'
  have hrej : x.s.rejected = false := by
    cases h : x.s.rejected with
    | false => rfl
    | true => have := I.rej h; omega
  have hgot : ∀ i, got c k 1 i = got c k 0 i := fun i => by simp [got]
  rcases Nat.lt_or_ge k c.stop with hk | hk
  · have e := recv_hdr_ok c hk _ rfl
    rw [← I.hr] at e
    rw [e]
    exact {
      hr := rfl, hk := I.hk, hm := hw, hmF := fun _ => Nat.le_refl _
      pos := .inr (.inl ⟨hn, by simp [full], fun h => by simp at h, fun _ => Nat.le_refl _⟩)
      cnt := fun i => by
        have := I.cnt i
        rw [held_lt I hk] at this
        rw [hgot, ← this]
        have hh : k ≠ c.stop := by omega
        simp [held, rAt, hh, List.count_append]
      hT := fun i => by
        have := I.hT i
        simp only [List.count_append]
        rw [this]
        by_cases e : i = k
        · subst e; simp [hn, hk]
        · have : ¬ (k = i) := fun h => e h.symm
          simp [e, this]
      hF := fun i => by
        have := I.hF i
        simp only [List.count_append]
        rw [this]
        have : k ≠ c.stop := by omega
        simp [this]
      gids := fun u hu => by
        simp only [List.mem_append, List.mem_singleton] at hu
        rcases hu with hu | rfl
        · exact I.gids u hu
        · simp only [Up.gid]; omega
      rej := fun h => by simp [hrej] at h
      rep := I.rep, tr := I.tr, tok := I.tok, tokw := I.tokw, tok2 := I.tok2, tok3 := I.tok3
      w0 := I.w0, nx := I.nx, said := I.said, pan := I.pan, hook := I.hook }
  · obtain rfl : k = c.stop := Nat.le_antisymm I.hk hk
    have e := recv_hdr_no c (c.waves c.stop).length
    rw [← I.hr] at e
    rw [e]
    exact {
      hr := rfl, hk := I.hk, hm := hw, hmF := fun _ => Nat.le_refl _
      pos := .inr (.inl ⟨hn, by simp [full], fun h => by simp at h, fun _ => Nat.le_refl _⟩)
      cnt := fun i => by
        have := I.cnt i
        rw [hgot, ← this]
        simp [held, rAt, I.hr, List.count_append]
      hT := fun i => by
        have := I.hT i
        simp only [List.count_append]
        rw [this]
        by_cases e : i = c.stop
        · subst e; simp
        · simp [e]
      hF := fun i => by
        have := I.hF i
        simp only [List.count_append]
        rw [this]
        by_cases e : i = c.stop
        · subst e; simp [hrej]
        · have : ¬ (c.stop = i) := fun h => e h.symm
          simp [e, this]
      gids := fun u hu => by
        simp only [List.mem_append, List.mem_singleton] at hu
        rcases hu with hu | rfl
        · exact I.gids u hu
        · simp only [Up.gid]; omega
      rej := fun _ => ⟨rfl, rfl⟩
      rep := I.rep, tr := I.tr, tok := I.tok, tokw := I.tokw, tok2 := I.tok2, tok3 := I.tok3
      w0 := I.w0, nx := I.nx, said := I.said, pan := I.pan, hook := I.hook }

theorem inv_recv_mid {c : Cfg} {x : St} {k m : Nat} {sent : Bool} {a : Nat → Nat} {rest : List Down} {b : Bytes}
    (I : Inv c x k m sent a) (hk : k < c.stop) (hm : 1 ≤ m) (hl : m < (c.waves k).length)
    (hb : (c.waves k)[m - 1]? = some b) (hs : k + 1 = x.s.nxt → sent = true)
    (pos : (k + 1 = x.s.nxt ∧ rest = (full c k sent).drop (m + 1)) ∨
      (k + 2 = x.s.nxt ∧ sent = false ∧
        rest = (full c k true).drop (m + 1) ++ [.hdr (c.start + (k + 1)) (c.waves (k + 1)).length])) :
    Inv c { x with r := (recv c.n x.r (.wave (c.start + k) b)).1, toR := rest
                   toS := x.toS ++ (recv c.n x.r (.wave (c.start + k) b)).2 } k (m + 1) sent a := by
  have e := recv_wave_mid c hk hm hl b hb
  rw [← I.hr] at e
  rw [e]
  have hks : k ≠ c.stop := by omega
  exact {
    hr := rfl, hk := I.hk, hm := hl, hmF := fun h => by omega
    pos := by
      rcases pos with ⟨h, h'⟩ | ⟨h, h', h''⟩
      · exact .inr (.inl ⟨h, h', fun _ => ⟨by omega, hk⟩, fun h2 => by simp [hs h] at h2⟩)
      · exact .inr (.inr ⟨h, by omega, h', h''⟩)
    cnt := fun i => by
      have := I.cnt i
      rw [held_lt I hk] at this
      simp only [held, rAt, hks, List.count_append]
      simp only [got] at this ⊢
      by_cases e : i = k
      · subst e; simp at this ⊢; omega
      · have : ¬ (k = i) := fun h => e h.symm
        simp_all
    hT := fun i => by
      have := I.hT i
      simp only [List.count_append]
      rw [this]
      have : (1 ≤ m + 1) ↔ 1 ≤ m := by omega
      simp [this]
    hF := fun i => by
      have := I.hF i
      simp only [List.count_append]
      rw [this]
      simp [hks]
    gids := fun u hu => by
      simp only [List.mem_append, List.mem_singleton] at hu
      rcases hu with hu | rfl
      · exact I.gids u hu
      · simp only [Up.gid]; omega
    rej := fun h => absurd (I.rej h).1 hks
    rep := I.rep, tr := I.tr, tok := I.tok, tokw := I.tokw, tok2 := I.tok2, tok3 := I.tok3
    w0 := I.w0, nx := I.nx, said := I.said, pan := I.pan, hook := I.hook }

theorem inv_recv_last {c : Cfg} {x : St} {k m : Nat} {sent : Bool} {a : Nat → Nat} {rest : List Down} {b : Bytes}
    (I : Inv c x k m sent a) (hn : k < c.n) (hk : k < c.stop) (hm : 1 ≤ m) (hl : m = (c.waves k).length)
    (hb : (c.waves k)[m - 1]? = some b)
    (pos : (k + 1 = x.s.nxt ∧ sent = true ∧ rest = []) ∨
      (k + 2 = x.s.nxt ∧ sent = false ∧ rest = [.hdr (c.start + (k + 1)) (c.waves (k + 1)).length])) :
    Inv c { x with r := (recv c.n x.r (.wave (c.start + k) b)).1, toR := rest
                   toS := x.toS ++ (recv c.n x.r (.wave (c.start + k) b)).2 } (k + 1) 0 sent a := by
  have e := recv_wave_last c hn hk hm hl b hb
  rw [← I.hr] at e
  rw [e]
  have hks : k ≠ c.stop := by omega
  have hrep : x.reported = false := by
    cases h : x.reported with
    | false => rfl
    | true => exact absurd (I.rep h) hks
  have hrej : x.s.rejected = false := by
    cases h : x.s.rejected with
    | false => rfl
    | true => exact absurd (I.rej h).1 hks
  exact {
    hr := rfl, hk := hk, hm := Nat.zero_le _, hmF := fun h => by omega
    pos := by
      rcases pos with ⟨h, h', h''⟩ | ⟨h, h', h''⟩
      · exact .inl ⟨h, rfl, h'', h'⟩
      · exact .inr (.inl ⟨h, by simp [h'', h', full], fun h => by simp [h'] at h, fun _ => Nat.zero_le _⟩)
    cnt := fun i => by
      have := I.cnt i
      rw [held_lt I hk] at this
      have hg : got c (k + 1) 0 i = got c k m i + if i = k then 1 else 0 := by
        simp only [got]
        by_cases h1 : i < k
        · rw [if_pos h1, if_pos (by omega), if_neg (by omega)]; rfl
        · rw [if_neg h1]
          by_cases h2 : i = k
          · subst h2; simp; omega
          · rw [if_neg h2, if_neg h2, if_neg (by omega)]; split <;> omega
      rw [hg, ← this, List.count_append]
      simp only [held, rAt, hrep, and_true]
      by_cases e : i = k
      · subst e
        by_cases hst : i + 1 = c.stop
        · have e0 : c.start + (i + 1) - 1 = c.start + i := by omega
          rw [if_pos hst, if_pos hst, e0, if_pos rfl, if_pos rfl]; simp
        · rw [if_neg hst, if_neg hst]; simp; omega
      · have hki : ¬ (k = i) := fun h => e h.symm
        by_cases hst : k + 1 = c.stop
        · have e0 : ¬ (some (c.start + (k + 1) - 1) = some (c.start + i)) := by
            simp only [Option.some.injEq]; omega
          rw [if_pos hst, if_pos hst, if_neg e0, if_neg e]; simp
        · rw [if_neg hst, if_neg hst, if_neg e]; simp [hki]
    hT := fun i => by
      have := I.hT i
      simp only [List.count_append]
      rw [this]
      have h1 : ¬ (i + 1 = x.s.nxt ∧ sent = false ∧ i = k ∧ 1 ≤ m ∧ i < c.stop) := by
        rintro ⟨h1, h2, h3, _⟩
        rcases pos with ⟨_, h, _⟩ | ⟨h, _⟩
        · simp [h] at h2
        · omega
      have h2 : ¬ (i + 1 = x.s.nxt ∧ sent = false ∧ i = k + 1 ∧ 1 ≤ 0 ∧ i < c.stop) := by omega
      rw [if_neg h1, if_neg h2]
      split <;> simp
    hF := fun i => by
      have := I.hF i
      simp only [List.count_append]
      have h1 : ¬ (i = c.stop ∧ k = c.stop ∧ m = 1 ∧ x.s.rejected = false) := by omega
      have h2 : ¬ (i = c.stop ∧ k + 1 = c.stop ∧ 0 = 1 ∧ x.s.rejected = false) := by omega
      rw [this, if_neg h1, if_neg h2]
      split <;> simp
    gids := fun u hu => by
      simp only [List.mem_append] at hu
      rcases hu with hu | hu
      · exact I.gids u hu
      · split at hu
        · simp at hu
        · simp only [List.mem_singleton] at hu
          subst hu
          simp only [Up.gid]; omega
    rej := fun h => by simp [hrej] at h
    rep := fun h => by simp [hrep] at h
    tr := I.tr, tok := I.tok, tokw := I.tokw, tok2 := I.tok2, tok3 := I.tok3
    w0 := I.w0, nx := I.nx, said := I.said, pan := I.pan, hook := I.hook }

theorem inv_recv {c : Cfg} (hW : c.WF) {x : St} {k m : Nat} {sent : Bool} {a : Nat → Nat} {rest : List Down}
    {mm : Down} (I : Inv c x k m sent a) (hx : x.toR = mm :: rest) :
    ∃ k' m' sent' a', Inv c { x with r := (recv c.n x.r mm).1, toR := rest
                                     toS := x.toS ++ (recv c.n x.r mm).2 } k' m' sent' a' := by
  rcases I.pos with ⟨_, _, h, _⟩ | ⟨hn, hR, hs1, hs0⟩ | ⟨hn, hm2, hs, hR⟩
  · rw [h] at hx; simp at hx
  · by_cases hm0 : m = 0
    · subst hm0
      have : sent = false := by
        cases sent with
        | false => rfl
        | true => have := hs1 rfl; omega
      subst this
      exact ⟨_, _, _, _, inv_recv_hdr hW I hn hx⟩
    · have hm1 : 1 ≤ m := by omega
      cases sent with
      | false => rw [hR, full_false_drop c k m hm1] at hx; simp at hx
      | true =>
        have hk := (hs1 rfl).2
        obtain ⟨b, hb, hd⟩ := full_drop_cons c k m hm1 I.hm
        rw [hR, hd] at hx
        simp only [List.cons.injEq] at hx
        obtain ⟨rfl, rfl⟩ := hx
        rcases Nat.lt_or_ge m (c.waves k).length with hl | hl
        · exact ⟨_, _, _, _, inv_recv_mid I hk hm1 hl hb (fun _ => rfl) (.inl ⟨hn, rfl⟩)⟩
        · have hl' : m = (c.waves k).length := Nat.le_antisymm I.hm hl
          have hkn : k < c.n := by have := I.nx; omega
          refine ⟨_, _, _, _, inv_recv_last I hkn hk hm1 hl' hb (.inl ⟨hn, rfl, ?_⟩)⟩
          apply List.drop_eq_nil_of_le; rw [full_len]; omega
  · have hm1 : 1 ≤ m := by omega
    have hk : k < c.stop := by
      rcases Nat.lt_or_ge k c.stop with h | h
      · exact h
      · have := I.hmF (Nat.le_antisymm I.hk h); omega
    obtain ⟨b, hb, hd⟩ := full_drop_cons c k m hm1 I.hm
    rw [hR, hd] at hx
    simp only [List.cons_append, List.cons.injEq] at hx
    obtain ⟨rfl, rfl⟩ := hx
    rcases Nat.lt_or_ge m (c.waves k).length with hl | hl
    · exact ⟨_, _, _, _, inv_recv_mid I hk hm1 hl hb (fun h => by omega) (.inr ⟨hn, hs, rfl⟩)⟩
    · have hl' : m = (c.waves k).length := Nat.le_antisymm I.hm hl
      have hkn : k < c.n := by have := I.nx; omega
      refine ⟨_, _, _, _, inv_recv_last I hkn hk hm1 hl' hb (.inr ⟨hn, hs, ?_⟩)⟩
      rw [List.drop_eq_nil_of_le (by rw [full_len]; omega)]; rfl

theorem got_le {c : Cfg} {x : St} {k m : Nat} {sent : Bool} {a : Nat → Nat} (I : Inv c x k m sent a) (i : Nat) :
    got c k m i ≤ (c.waves i).length := by
  unfold got
  split
  · exact Nat.le_refl _
  · split
    · rename_i h; subst h; have := I.hm; omega
    · omega

theorem got_pos {c : Cfg} {x : St} {k m : Nat} {sent : Bool} {a : Nat → Nat} (I : Inv c x k m sent a) {i : Nat}
    (h : 1 ≤ got c k m i) : i < x.s.nxt ∧ i < c.stop := by
  have hk := I.hk
  have hkn : k ≤ x.s.nxt := by rcases I.pos with h | h | h <;> omega
  unfold got at h
  split at h
  · omega
  · split at h
    · have hm : 2 ≤ m := by omega
      constructor
      · rcases I.pos with h | h | h <;> omega
      · rcases Nat.lt_or_ge k c.stop with h | h
        · omega
        · have := I.hmF (Nat.le_antisymm hk h); omega
    · omega

theorem inv_wack {c : Cfg} {x : St} {k m i : Nat} {sent : Bool} {a : Nat → Nat} {rest : List Up}
    (I : Inv c x k m sent a) (hx : x.toS = .wack (c.start + i) :: rest) (tokens' : Nat) (said' : List Status)
    (entry : Option Trans)
    (h1 : tokens' = x.s.tokens ∨ (tokens' = x.s.tokens + 1 ∧ i + 1 = x.s.nxt ∧ x.s.wait = true ∧ x.s.tokens = 0))
    (h2 : a i + 1 = (c.waves i).length → i + 1 = x.s.nxt → x.s.wait = true → x.s.tokens = 0 → tokens' = 1)
    (h3 : entry = if a i + 1 = (c.waves i).length then none else
      some ⟨i, a i + 1, decide (i + 1 = x.s.nxt ∧ x.s.wait = true ∧ tokens' = 0)⟩)
    (h4 : said' = if a i + 1 = (c.waves i).length then
      x.s.said ++ [if i ≠ c.n - 1 then .tick i else .complete] else x.s.said) :
    Inv c { x with s := { x.s with trans := upd x.s.trans (c.start + i) entry, tokens := tokens', said := said' }
                   toS := rest } k m sent (fun j => if j = i then a j + 1 else a j) := by
  have hc := I.cnt i
  rw [hx, List.count_cons_self] at hc
  have hgl := got_le I i
  obtain ⟨hin, hist⟩ := got_pos I (i := i) (by omega)
  have hai : a i < (c.waves i).length := by omega
  exact {
    hr := I.hr, hk := I.hk, hm := I.hm, hmF := I.hmF, pos := I.pos
    cnt := fun j => by
      have := I.cnt j
      rw [hx] at this
      simp only [held] at this ⊢
      by_cases e : j = i
      · subst e
        rw [List.count_cons_self] at this
        simp only [if_true]; omega
      · have : Up.wack (c.start + i) ≠ .wack (c.start + j) := by simp; omega
        rw [if_neg e]
        rw [List.count_cons_of_ne this] at *
        assumption
    hT := fun j => by
      have := I.hT j
      rw [hx, List.count_cons_of_ne (by simp)] at this
      exact this
    hF := fun j => by
      have := I.hF j
      rw [hx, List.count_cons_of_ne (by simp)] at this
      exact this
    gids := fun u hu => I.gids u (by rw [hx]; exact List.mem_cons_of_mem _ hu)
    rej := I.rej, rep := I.rep
    tr := fun j => by
      have := I.tr j
      simp only [upd]
      by_cases e : j = i
      · subst e
        rw [if_pos rfl, h3]
        by_cases hw : a j + 1 = (c.waves j).length
        · rw [if_pos hw, if_neg]
          simp only [if_true]; omega
        · rw [if_neg hw, if_pos]
          · simp
          · refine ⟨hin, by simp only [if_true]; omega, fun h => by omega⟩
      · rw [if_neg (by omega), this, if_neg e]
        have hd : decide (j + 1 = x.s.nxt ∧ x.s.wait = true ∧ x.s.tokens = 0) =
            decide (j + 1 = x.s.nxt ∧ x.s.wait = true ∧ tokens' = 0) := by
          rcases h1 with h | ⟨_, h, _⟩
          · rw [h]
          · have : j + 1 ≠ x.s.nxt := by omega
            simp [this]
        rw [hd]
    tok := by
      have := I.tok
      simp only; omega
    tokw := fun h => by
      have := I.tokw h
      simp only at h ⊢
      rcases h1 with h' | ⟨_, _, h', _⟩
      · omega
      · rw [h] at h'; simp at h'
    tok2 := fun g hg h => by
      simp only at hg h ⊢
      by_cases e : g = i
      · rw [if_pos e]; omega
      · rw [if_neg e]
        rcases h1 with h' | ⟨_, h', _⟩
        · exact I.tok2 g hg (by rw [← h']; exact h)
        · omega
    tok3 := fun g hg hw ht => by
      simp only at hg hw ht ⊢
      have ht' : x.s.tokens = 0 := by omega
      by_cases e : g = i
      · subst e
        rw [if_pos rfl]
        have := h2
        by_cases h : a g + 1 = (c.waves g).length
        · have := h2 h hg hw ht'; omega
        · omega
      · rw [if_neg e]; exact I.tok3 g hg hw ht'
    w0 := I.w0, nx := I.nx
    said := by
      have hnx := I.nx
      have hs := I.said
      simp only
      rw [h4]
      by_cases hw : a i + 1 = (c.waves i).length
      · rw [if_pos hw]
        by_cases e : i = c.n - 1
        · rw [if_neg (by omega)]
          simp only [List.mem_append, List.mem_singleton, or_true, true_iff]
          refine ⟨by omega, ?_⟩
          rw [if_pos e.symm, ← e]; exact hw
        · rw [if_pos (by omega), if_neg (by omega)]
          simpa using hs
      · rw [if_neg hw]
        by_cases e : i = c.n - 1
        · rw [if_pos e.symm]
          rw [hs, ← e]
          constructor
          · intro h; omega
          · intro h; omega
        · rw [if_neg (by omega)]; exact hs
    pan := I.pan, hook := I.hook }

theorem inv_hear {c : Cfg} (hW : c.WF) {x : St} {k m : Nat} {sent : Bool} {a : Nat → Nat} {rest : List Up}
    {u : Up} (I : Inv c x k m sent a) (hx : x.toS = u :: rest) (early : Bool) :
    ∃ k' m' sent' a', Inv c { x with s := (hear c x.s early u).1, toS := rest
                                     toR := x.toR ++ (hear c x.s early u).2 } k' m' sent' a' := by
  have hgid := I.gids u (by rw [hx]; simp)
  have hrest : ∀ v ∈ rest, c.start ≤ v.gid := fun v hv => I.gids v (by rw [hx]; exact List.mem_cons_of_mem _ hv)
  match u with
  | .hack gid true =>
    obtain ⟨i, rfl⟩ : ∃ i, gid = c.start + i := ⟨gid - c.start, by simp only [Up.gid] at hgid; omega⟩
    have h := I.hT i
    rw [hx, List.count_cons_self] at h
    split at h
    case isFalse => omega
    rename_i hc
    obtain ⟨hi, hs, rfl, hm, hst⟩ := hc
    subst hs
    have hm1 : m = 1 := by
      rcases I.pos with h | ⟨_, _, _, h⟩ | h
      · omega
      · have := h rfl; omega
      · omega
    subst hm1
    have hR : x.toR = [] := by
      rcases I.pos with h | ⟨_, h, _⟩ | h
      · omega
      · rw [h]; exact full_false_drop c i 1 (Nat.le_refl _)
      · omega
    have hnx := I.nx
    have hw := waves_pos hW (i := i) (by omega)
    have hcnt := I.cnt i
    have ha : a i = 0 := by simp [got] at hcnt; omega
    have hrej : x.s.rejected = false := by
      cases h : x.s.rejected with
      | false => rfl
      | true => have := I.rej h; omega
    have ht := I.tr i
    rw [if_pos ⟨by omega, by omega, by simp [hrej]⟩] at ht
    simp only [hear, ht]
    refine ⟨i, 1, true, a, ?_⟩
    exact {
      hr := I.hr, hk := I.hk, hm := I.hm, hmF := I.hmF
      pos := .inr (.inl ⟨hi, by simp [hR, full], fun _ => ⟨Nat.le_refl _, hst⟩, fun h => by simp at h⟩)
      cnt := fun j => by
        have := I.cnt j
        rw [hx, List.count_cons_of_ne (by simp)] at this
        exact this
      hT := fun j => by
        have := I.hT j
        rw [hx] at this
        simp only [Bool.true_eq_false, false_and, and_false, if_false]
        by_cases e : j = i
        · subst e; omega
        · rw [List.count_cons_of_ne (by simp; omega), if_neg (by omega)] at this
          exact this
      hF := fun j => by
        have := I.hF j
        rw [hx, List.count_cons_of_ne (by simp)] at this
        exact this
      gids := hrest, rej := I.rej, rep := I.rep, tr := I.tr, tok := I.tok, tokw := I.tokw, tok2 := I.tok2
      tok3 := I.tok3, w0 := I.w0, nx := I.nx, said := I.said, pan := I.pan, hook := I.hook }
  | .hack gid false =>
    obtain ⟨i, rfl⟩ : ∃ i, gid = c.start + i := ⟨gid - c.start, by simp only [Up.gid] at hgid; omega⟩
    have h := I.hF i
    rw [hx, List.count_cons_self] at h
    split at h
    case isFalse => omega
    rename_i hc
    obtain ⟨rfl, hk, hm, hrej⟩ := hc
    simp only [hear, List.append_nil]
    refine ⟨k, m, sent, a, ?_⟩
    exact {
      hr := I.hr, hk := I.hk, hm := I.hm, hmF := I.hmF, pos := I.pos
      cnt := fun j => by
        have := I.cnt j
        rw [hx, List.count_cons_of_ne (by simp)] at this
        exact this
      hT := fun j => by
        have := I.hT j
        rw [hx, List.count_cons_of_ne (by simp)] at this
        exact this
      hF := fun j => by
        have := I.hF j
        rw [hx] at this
        simp only [Bool.true_eq_false, and_false, if_false]
        by_cases e : j = c.stop
        · subst e; omega
        · rw [List.count_cons_of_ne (by simp; omega), if_neg (by omega)] at this
          exact this
      gids := hrest, rej := fun _ => ⟨hk, hm⟩, rep := I.rep
      tr := fun j => by
        have := I.tr j
        simp only [upd]
        by_cases e : j = c.stop
        · subst e; simp
        · rw [if_neg (by omega), this]
          simp [hrej, e]
      tok := I.tok, tokw := I.tokw, tok2 := I.tok2
      tok3 := I.tok3, w0 := I.w0, nx := I.nx, said := I.said, pan := I.pan, hook := I.hook }
  | .wack gid =>
    obtain ⟨i, rfl⟩ : ∃ i, gid = c.start + i := ⟨gid - c.start, by simp only [Up.gid] at hgid; omega⟩
    have hc := I.cnt i
    rw [hx, List.count_cons_self] at hc
    have hgl := got_le I i
    obtain ⟨hin, hist⟩ := got_pos I (i := i) (by omega)
    have ht := I.tr i
    rw [if_pos ⟨hin, by omega, fun h => by omega⟩] at ht
    by_cases hw : a i + 1 = (c.waves i).length
    · simp only [hear, ht, hw, if_true, List.append_nil]
      refine ⟨_, _, _, _, inv_wack I hx _ _ none ?_ ?_ ?_ ?_⟩
      · by_cases hN : i + 1 = x.s.nxt ∧ x.s.wait = true ∧ x.s.tokens = 0
        · right; simp [hN]
        · left; simp [hN]
      · intro _ h1 h2 h3; simp [h1, h2, h3]
      · rw [if_pos hw]
      · rw [if_pos hw]
    · by_cases he : early = true ∧ (i + 1 = x.s.nxt ∧ x.s.wait = true ∧ x.s.tokens = 0)
      · have he' : (early && decide (i + 1 = x.s.nxt ∧ x.s.wait = true ∧ x.s.tokens = 0)) = true := by
          simp only [Bool.and_eq_true, decide_eq_true_eq]; exact he
        simp only [hear, ht, hw, if_false, List.append_nil, he', if_true]
        refine ⟨_, _, _, _, inv_wack I hx (x.s.tokens + 1) x.s.said _ (.inr ⟨rfl, he.2⟩) (fun h => absurd h hw)
          ?_ ?_⟩
        · rw [if_neg hw]; simp
        · rw [if_neg hw]
      · have he' : (early && decide (i + 1 = x.s.nxt ∧ x.s.wait = true ∧ x.s.tokens = 0)) = false := by
          simp only [Bool.and_eq_false_iff, decide_eq_false_iff_not]
          cases early with
          | false => exact .inl rfl
          | true => exact .inr (fun h => he ⟨rfl, h⟩)
        simp only [hear, ht, hw, if_false, List.append_nil, he', Bool.false_eq_true]
        refine ⟨_, _, _, _, inv_wack I hx x.s.tokens x.s.said _ (.inl rfl) (fun h => absurd h hw) ?_ ?_⟩
        · rw [if_neg hw]
        · rw [if_neg hw]

theorem inv_reach {c : Cfg} (hW : c.WF) {x : St} (h : Reach c x) : ∃ k m sent a, Inv c x k m sent a := by
  induction h with
  | init => exact ⟨_, _, _, _, inv_init c hW⟩
  | step _ hs ih =>
    obtain ⟨k, m, sent, a, I⟩ := ih
    cases hs with
    | send hw hn => exact ⟨_, _, _, _, inv_send hW I hw hn⟩
    | wake hw ht => exact ⟨_, _, _, _, inv_wake I ht⟩
    | hook hw hn hh => exact ⟨_, _, _, _, inv_hook I hw hn⟩
    | recv mm rest h => exact inv_recv hW I h
    | finish gid h hr => exact ⟨_, _, _, _, inv_finish I h hr⟩
    | hear u rest early h => exact inv_hear hW I h early

/-! ### Every execution ends -/

/-- The work a message to the receiver still causes. -/
def wDown : Down → Nat
  | .hdr _ w => 2 + 3 * w
  | .wave _ _ => 3

/-- The work a message to the sender still causes. -/
def wUp (c : Cfg) : Up → Nat
  | .hack gid true => 1 + 3 * (c.waves (gid - c.start)).length
  | .hack _ false => 1
  | .wack _ => 1

/-- The groups not started yet. -/
def wTodo (c : Cfg) (nxt : Nat) : Nat := ((c.groups.drop nxt).map fun g => 5 + 3 * g.length).sum

/-- The work left at the loop of the sender. -/
def wLoop (wait : Bool) (tokens : Nat) : Nat := if wait = true then (if tokens = 0 then 2 else 1) else 0

theorem wLoop_mono (w : Bool) {t t' : Nat} (h : t ≤ t') : wLoop w t' ≤ wLoop w t := by
  unfold wLoop
  by_cases h1 : t = 0
  · by_cases h2 : t' = 0 <;> simp [h1, h2] <;> split <;> omega
  · have h2 : t' ≠ 0 := by omega
    simp [h1, h2]

/-- The work left. -/
def work (c : Cfg) (x : St) : Nat :=
  wTodo c x.s.nxt + (x.toR.map wDown).sum + (x.toS.map (wUp c)).sum +
    (if x.r.done.isSome ∧ x.reported = false then 2 else 0) +
    wLoop x.s.wait x.s.tokens + (!x.s.hook).toNat

theorem wTodo_succ (c : Cfg) {i : Nat} (h : i < c.n) :
    wTodo c i = 5 + 3 * (c.waves i).length + wTodo c (i + 1) := by
  have h' : i < c.groups.length := h
  simp only [wTodo, Cfg.waves]
  rw [List.drop_eq_getElem_cons h']
  simp only [List.map_cons, List.sum_cons, List.getD_eq_getElem?_getD, List.getElem?_eq_getElem h', Option.getD_some]

theorem sum_waves (gid : Nat) (l : List Bytes) :
    ((l.map (Down.wave gid)).map wDown).sum = 3 * l.length := by
  induction l with
  | nil => rfl
  | cons b l ih => simp only [List.map_cons, List.sum_cons, ih, wDown, List.length_cons]; omega

theorem work_lt {c : Cfg} (hW : c.WF) {x y : St} (hx : Reach c x) (h : Step c x y) : work c y < work c x := by
  obtain ⟨k, m, sent, a, I⟩ := inv_reach hW hx
  cases h with
  | send hw hn =>
    have ht := I.tokw hw
    have := wTodo_succ c hn
    simp only [work, List.map_append, List.sum_append, List.map_cons, List.map_nil, List.sum_cons, List.sum_nil, wDown,
      if_true, hw, ht, Bool.false_eq_true, if_false, wLoop]
    omega
  | wake hw ht =>
    have := I.tok
    have h1 : x.s.tokens = 1 := by omega
    simp [work, hw, h1, wLoop]
  | hook hw hn hh =>
    simp [work, hh]
  | finish gid h hr =>
    simp only [work, List.map_append, List.sum_append, List.map_cons, List.map_nil, List.sum_cons, List.sum_nil, wUp, h,
      hr, Option.isSome_some, and_self, if_true, Bool.true_eq_false, and_false, if_false]
    omega
  | recv mm rest h =>
    have hcase : (recv c.n x.r mm).1.done.isSome = x.r.done.isSome ∧
        ((recv c.n x.r mm).2.map (wUp c)).sum < wDown mm ∨
        ((recv c.n x.r mm).2 = [] ∧ wDown mm = 3) := by
      have hgidk : ∀ gid w, mm = .hdr gid w → ∃ i, gid = c.start + i ∧ w = (c.waves i).length := by
        intro gid w hm
        subst hm
        have : Down.hdr gid w ∈ x.toR := by rw [h]; simp
        rcases I.pos with ⟨_, _, h, _⟩ | ⟨_, h, _⟩ | ⟨_, _, _, h⟩
        · rw [h] at this; simp at this
        · rw [h] at this
          have := List.mem_of_mem_drop this
          cases sent <;> simp [full] at this <;> exact ⟨k, this.1, this.2⟩
        · rw [h, List.mem_append] at this
          rcases this with this | this
          · have := List.mem_of_mem_drop this
            simp [full] at this
            exact ⟨k, this.1, this.2⟩
          · simp at this
            exact ⟨k + 1, this.1, this.2⟩
      cases mm with
      | hdr gid w =>
        obtain ⟨i, rfl, rfl⟩ := hgidk _ _ rfl
        left
        simp only [recv]
        split
        · simp [wUp, wDown]; omega
        · split
          · simp [wUp, wDown]
          · simp [wUp, wDown]; omega
      | wave gid b =>
        simp only [recv]
        split
        · right; simp [wDown]
        · split
          · split
            · split
              · right; simp [wDown]
              · left; simp [wUp, wDown]
            · right; simp [wDown]
          · left; simp [wUp, wDown]
    simp only [work, h, List.map_append, List.sum_append, List.map_cons, List.sum_cons]
    rcases hcase with ⟨h1, h2⟩ | ⟨h1, h2⟩
    · rw [h1]; omega
    · rw [h1, h2]
      have e1 : ((if (recv c.n x.r mm).1.done.isSome = true ∧ x.reported = false then 2 else 0) : Nat) ≤ 2 := by
        split <;> omega
      simp only [List.map_nil, List.sum_nil]
      omega
  | hear u rest early h =>
    have hgid := I.gids u (by rw [h]; simp)
    match u with
    | .hack gid true =>
      obtain ⟨i, rfl⟩ : ∃ i, gid = c.start + i := ⟨gid - c.start, by simp only [Up.gid] at hgid; omega⟩
      have htr := I.tr i
      simp only [hear]
      split
      · simp only [work, h, List.map_append, List.sum_append, List.map_cons, List.map_nil, List.sum_cons,
          List.sum_nil, wUp]
        omega
      · rename_i t ht
        have hrel : t.rel = i := by
          rw [htr] at ht
          split at ht
          · simp only [Option.some.injEq] at ht; rw [← ht]
          · simp at ht
        simp only [work, h, List.map_append, List.sum_append, List.map_cons, List.sum_cons, wUp, sum_waves, hrel,
          Nat.add_sub_cancel_left]
        omega
    | .hack gid false =>
      simp only [hear, work, h, List.map_append, List.sum_append, List.map_cons, List.map_nil, List.sum_cons,
          List.sum_nil, wUp]
      omega
    | .wack gid =>
      obtain ⟨i, rfl⟩ : ∃ i, gid = c.start + i := ⟨gid - c.start, by simp only [Up.gid] at hgid; omega⟩
      have key : ∀ s' : Snd, s'.nxt = x.s.nxt → s'.wait = x.s.wait → s'.hook = x.s.hook → x.s.tokens ≤ s'.tokens →
          work c { x with s := s', toS := rest, toR := x.toR ++ [] } < work c x := by
        intro s' h1 h2 h3 h4
        have := wLoop_mono x.s.wait h4
        simp only [work, h, List.append_nil, List.map_cons, List.sum_cons, wUp, h1, h2, h3]
        omega
      simp only [hear]
      split
      · exact key _ rfl rfl rfl (Nat.le_refl _)
      · split
        · exact key _ rfl rfl rfl (Nat.le_add_right _ _)
        · split
          · exact key _ rfl rfl rfl (Nat.le_add_right _ _)
          · exact key _ rfl rfl rfl (Nat.le_refl _)

end Verif.Transfer

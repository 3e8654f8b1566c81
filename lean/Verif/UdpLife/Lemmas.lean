import Verif.UdpLife.Spec

/-! Invariants of the life of unordered channels. -/

namespace Verif.UdpLife

theorem set_same {α : Type} (f : Nat → α) (n : Nat) (b : α) : set f n b n = b := by simp [set]

theorem set_other {α : Type} (f : Nat → α) {n m : Nat} (b : α) (h : m ≠ n) : set f n b m = f m := by
  simp [set, h]

theorem stop_true {f : Nat → Bool} {c : Option Nat} {n : Nat} (h : stop f c n = true) :
    f n = true ∧ c ≠ some n := by
  cases c with
  | none => exact ⟨h, by simp⟩
  | some m =>
    by_cases hm : n = m
    · subst hm; simp [stop, set] at h
    · refine ⟨by simpa [stop, set, hm] using h, ?_⟩
      intro he; exact hm (Option.some.inj he).symm

theorem stop_other {f : Nat → Bool} {c : Option Nat} {n : Nat} (h : c ≠ some n) :
    stop f c n = f n := by
  cases c with
  | none => rfl
  | some m =>
    have : n ≠ m := fun he => h (by rw [he])
    simp [stop, set, this]

/-- What holds in every run. -/
structure Inv (s : State) : Prop where
  reg : ∀ n, s.task n = true → ∃ v, s.vconn = some v ∧ v.chan = some n
  gave : ∀ n, s.task n = true → ∃ k, (k, n) ∈ s.given
  tok : ∀ v n, s.vconn = some v → v.chan = some n → n < s.next ∧ s.token n = v.id
  dir : ∀ v n, s.vconn = some v → v.chan = some n → v.direct.isSome = true
  low : ∀ p, p ∈ s.given → p.2 < s.next
  once : (s.given.map Prod.snd).Nodup

theorem inv_init (w : Bool) : Inv (init w) := by
  constructor <;> simp [init]

theorem inv_same {s t : State} (h : Inv s) (hv : t.vconn = s.vconn) (hx : t.next = s.next)
    (ht : t.task = s.task) (hk : t.token = s.token) (hg : t.given = s.given) : Inv t := by
  obtain ⟨a, b, c, d, e, f⟩ := h
  constructor
  · rw [ht, hv]; exact a
  · rw [ht, hg]; exact b
  · rw [hv, hx, hk]; exact c
  · rw [hv]; exact d
  · rw [hg, hx]; exact e
  · rw [hg]; exact f

/-- The connection is replaced by one without a channel, and its task stopped. -/
theorem inv_none {s t : State} (h : Inv s)
    (hv : ∀ v n, t.vconn = some v → v.chan ≠ some n) (hx : t.next = s.next)
    (ht : ∀ n, t.task n = false) (hg : t.given = s.given) : Inv t := by
  obtain ⟨a, b, c, d, e, f⟩ := h
  constructor
  · intro n hn; rw [ht n] at hn; cases hn
  · intro n hn; rw [ht n] at hn; cases hn
  · intro v n h1 h2; exact absurd h2 (hv v n h1)
  · intro v n h1 h2; exact absurd h2 (hv v n h1)
  · rw [hg, hx]; exact e
  · rw [hg]; exact f

theorem stopped {s : State} (h : Inv s) {v : Vconn} (hv : s.vconn = some v) (n : Nat) :
    stop s.task v.chan n = false := by
  cases hb : stop s.task v.chan n with
  | false => rfl
  | true =>
    obtain ⟨h1, h2⟩ := stop_true hb
    obtain ⟨w, hw, hc⟩ := h.reg n h1
    rw [hv] at hw; cases hw
    exact absurd hc h2

theorem idle {s : State} (h : Inv s) (hv : s.vconn = none) (n : Nat) : s.task n = false := by
  cases hb : s.task n with
  | false => rfl
  | true =>
    obtain ⟨w, hw, _⟩ := h.reg n hb
    rw [hv] at hw; cases hw

theorem inv_create {s : State} (h : Inv s) (f : Bool) : Inv (create s f) := by
  unfold create
  split
  · exact h
  · split
    · split
      · rename_i hv
        exact inv_none h (by intro v n he; cases he; simp) rfl (fun n => idle h hv n) rfl
      · rename_i v hv
        split
        · split
          · exact inv_same h rfl rfl rfl rfl rfl
          · exact inv_same h rfl rfl rfl rfl rfl
        · exact inv_none h (by intro v n he; cases he; simp) rfl (stopped h hv) rfl
    · split
      · exact inv_same h rfl rfl rfl rfl rfl
      · exact h

theorem insertDirect_chan (w : Bool) (v : Vconn) (l : Bool) :
    (insertDirect w v l).chan = v.chan ∧ (insertDirect w v l).id = v.id ∧
      (insertDirect w v l).active = v.active ∧ (insertDirect w v l).direct.isSome = true := by
  unfold insertDirect
  split
  · rename_i e he
    split
    · exact ⟨rfl, rfl, rfl, by simp [he]⟩
    · split
      · exact ⟨rfl, rfl, rfl, rfl⟩
      · exact ⟨rfl, rfl, rfl, by simp [he]⟩
  · exact ⟨rfl, rfl, rfl, rfl⟩

/-- The connection changes, but not its id, its channel, and stays direct if it has one. -/
theorem inv_vconn {s t : State} {v w : Vconn} (h : Inv s) (hv : s.vconn = some v)
    (hw : t.vconn = some w) (h1 : w.chan = v.chan) (h2 : w.id = v.id)
    (h3 : v.direct.isSome = true → w.direct.isSome = true) (hx : t.next = s.next)
    (ht : t.task = s.task) (hk : t.token = s.token) (hg : t.given = s.given) : Inv t := by
  obtain ⟨a, b, c, d, e, f⟩ := h
  constructor
  · intro n hn; rw [ht] at hn
    obtain ⟨u, hu, hc⟩ := a n hn
    rw [hv] at hu; cases hu
    exact ⟨w, hw, by rw [h1]; exact hc⟩
  · rw [ht, hg]; exact b
  · intro u n hu hc; rw [hw] at hu; cases hu
    rw [hx, hk, h2]; exact c v n hv (by rw [← h1]; exact hc)
  · intro u n hu hc; rw [hw] at hu; cases hu
    exact h3 (d v n hv (by rw [← h1]; exact hc))
  · rw [hg, hx]; exact e
  · rw [hg]; exact f

theorem inv_stream {s : State} (h : Inv s) (l : Bool) : Inv (stream s l) := by
  unfold stream
  split
  · exact h
  · rename_i v hv
    obtain ⟨h1, h2, _, h4⟩ := insertDirect_chan s.want v l
    exact inv_vconn h hv rfl h1 h2 (fun _ => h4) rfl rfl rfl rfl

/-- A channel has been registered: its number is new, and no task runs. -/
structure Mid (s : State) (n : Nat) : Prop where
  idle : ∀ m, s.task m = false
  reg : ∃ v, s.vconn = some v ∧ v.chan = some n ∧ v.direct.isSome = true ∧ s.token n = v.id
  nxt : s.next = n + 1
  low : ∀ p, p ∈ s.given → p.2 < n
  once : (s.given.map Prod.snd).Nodup

theorem mid_insert {s t : State} (h : Inv s) (ht : insertUdp s = some t) : Mid t s.next := by
  unfold insertUdp at ht
  split at ht
  · cases ht
  · rename_i v hv
    split at ht
    · rename_i hd
      cases ht
      exact ⟨stopped h hv, ⟨_, rfl, rfl, hd, set_same _ _ _⟩, rfl, h.low, h.once⟩
    · cases ht

theorem mid_lost {s : State} {n : Nat} (h : Mid s n) : Inv (lost s n) := by
  obtain ⟨v, hv, hc, hd, ht⟩ := h.reg
  constructor
  · intro m hm; simp [lost, h.idle m] at hm
  · intro m hm; simp [lost, h.idle m] at hm
  · intro w m hw hm
    simp only [lost] at hw ⊢
    rw [hv] at hw; cases hw
    rw [hc] at hm; cases hm
    exact ⟨by rw [h.nxt]; omega, ht⟩
  · intro w m hw _
    simp only [lost] at hw
    rw [hv] at hw; cases hw
    exact hd
  · intro p hp
    have := h.low p hp
    simp only [lost, h.nxt]; omega
  · exact h.once

theorem mid_kem {s : State} {n : Nat} (h : Mid s n) (k : Option Kem) :
    Mid { s with kem := k } n := ⟨h.idle, h.reg, h.nxt, h.low, h.once⟩

theorem inv_hand {s : State} {n : Nat} (h : Mid s n) : Inv (hand s n) := by
  unfold hand
  split
  · exact mid_lost h
  · rename_i k _
    split
    · split
      · obtain ⟨v, hv, hc, hd, ht⟩ := h.reg
        have hn : ∀ m, set s.task n true m = true → m = n := by
          intro m hm
          by_cases he : m = n
          · exact he
          · rw [set_other _ _ he, h.idle m] at hm; cases hm
        constructor
        · intro m hm; rw [hn m hm]; exact ⟨v, hv, hc⟩
        · intro m hm; rw [hn m hm]; exact ⟨k.id, by simp⟩
        · intro w m hw hm
          simp only at hw
          rw [hv] at hw; cases hw
          rw [hc] at hm; cases hm
          exact ⟨by simp only [h.nxt]; omega, ht⟩
        · intro w m hw _
          simp only at hw
          rw [hv] at hw; cases hw
          exact hd
        · intro p hp
          simp only [List.mem_append, List.mem_singleton] at hp
          simp only [h.nxt]
          rcases hp with hp | hp
          · have := h.low p hp; omega
          · subst hp; simp
        · simp only [List.map_append, List.map_cons, List.map_nil]
          rw [List.nodup_append]
          refine ⟨h.once, by simp, ?_⟩
          intro a ha b hb
          simp only [List.mem_singleton] at hb
          subst hb
          obtain ⟨p, hp, rfl⟩ := List.mem_map.mp ha
          have := h.low p hp
          omega
      · exact mid_lost (mid_kem h _)
    · exact mid_lost h

theorem inv_load {s : State} (h : Inv s) : Inv (load s) := by
  unfold load
  split
  · exact h
  · have h' : Inv { s with pending := s.pending - 1 } := inv_same h rfl rfl rfl rfl rfl
    split
    · exact h'
    · rename_i t ht
      exact inv_hand (mid_insert (s := { s with pending := s.pending - 1 }) h' ht)

theorem inv_removeUdp {s : State} (h : Inv s) : Inv (removeUdp s) := by
  unfold removeUdp
  split
  · exact h
  · rename_i v hv
    split
    · exact inv_none h (by intro w n hw; cases hw; simp) rfl (stopped h hv) rfl
    · exact h

theorem inv_dispatch {s : State} (h : Inv s) : Inv (dispatch s) := by
  unfold dispatch
  split
  · exact h
  · rename_i t q _
    have h' : Inv { s with queue := q } := inv_same h rfl rfl rfl rfl rfl
    split
    · exact h'
    · split
      · exact h'
      · exact inv_removeUdp h'

theorem inv_close {s : State} (h : Inv s) : Inv (close s) := by
  unfold close
  simp only
  have h' := inv_removeUdp h
  split
  · exact h'
  · rename_i v hv
    exact inv_none h' (by intro w n hw; cases hw) rfl (stopped h' hv) rfl

theorem inv_fail {s : State} (h : Inv s) (n : Nat) : Inv (fail s n) := by
  have hm : ∀ m, set s.task n false m = true → s.task m = true := by
    intro m hm
    by_cases he : m = n
    · rw [he, set_same] at hm; cases hm
    · rwa [set_other _ _ he] at hm
  exact ⟨fun m hx => h.reg m (hm m hx), fun m hx => h.gave m (hm m hx), h.tok, h.dir, h.low, h.once⟩

theorem inv_step {s : State} (h : Inv s) (e : Event) : Inv (step s e) := by
  cases e with
  | kex id => exact inv_same h rfl rfl rfl rfl rfl
  | create f => exact inv_create h f
  | stream l => exact inv_stream h l
  | load => exact inv_load h
  | dispatch => exact inv_dispatch h
  | dropHalf n =>
    simp only [step, dropHalf]
    split
    · exact inv_same h rfl rfl rfl rfl rfl
    · exact h
  | dropRx id =>
    simp only [step, dropRx]
    split
    · exact h
    · split
      · exact inv_same h rfl rfl rfl rfl rfl
      · exact h
  | fail n => exact inv_fail h n
  | deactivate =>
    simp only [step, deactivate]
    split
    · exact h
    · rename_i v hv
      exact inv_vconn (w := { v with active := false }) h hv rfl rfl rfl id rfl rfl rfl rfl
  | close => exact inv_close h
  | forget => exact inv_same h rfl rfl rfl rfl rfl

theorem inv_run {s : State} (h : Inv s) : ∀ es, Inv (run s es)
  | [] => h
  | e :: es => inv_run (s := step s e) (inv_step h e) es

/-- A step that hands out nothing. -/
def Keep (s t : State) : Prop :=
  t.given = s.given ∧
    ∀ k', t.kem = some k' → ∃ k, s.kem = some k ∧ k'.id = k.id ∧ (k'.tx = true → k.tx = true)

/-- A step that hands out a channel. -/
def Give (s t : State) : Prop :=
  ∃ k v, s.kem = some k ∧ k.tx = true ∧ k.rx = true ∧ s.vconn = some v ∧
    t.kem = some { k with tx := false } ∧ t.given = s.given ++ [(k.id, s.next)] ∧
    t.token = set s.token s.next v.id

theorem keep_same {s t : State} (hg : t.given = s.given) (hk : t.kem = s.kem) : Keep s t :=
  ⟨hg, fun k' h => ⟨k', by rw [← hk]; exact h, rfl, id⟩⟩

theorem keep_none {s t : State} (hg : t.given = s.given) (hk : t.kem = none) : Keep s t :=
  ⟨hg, fun k' h => by rw [hk] at h; cases h⟩

theorem keep_kem {s t : State} {k k' : Kem} (hg : t.given = s.given) (hs : s.kem = some k)
    (ht : t.kem = some k') (hi : k'.id = k.id) (hx : k'.tx = true → k.tx = true) : Keep s t :=
  ⟨hg, fun j h => by rw [ht] at h; cases h; exact ⟨k, hs, hi, hx⟩⟩

theorem removeUdp_same (s : State) :
    (removeUdp s).given = s.given ∧ (removeUdp s).kem = s.kem ∧ (removeUdp s).token = s.token ∧
      (removeUdp s).next = s.next := by
  unfold removeUdp
  split
  · exact ⟨rfl, rfl, rfl, rfl⟩
  · split <;> exact ⟨rfl, rfl, rfl, rfl⟩

theorem close_same (s : State) :
    (close s).given = s.given ∧ (close s).kem = s.kem ∧ (close s).token = s.token ∧
      (close s).next = s.next ∧ (close s).vconn = none := by
  obtain ⟨h1, h2, h3, h4⟩ := removeUdp_same s
  unfold close
  simp only
  split
  · rename_i hv; exact ⟨h1, h2, h3, h4, hv⟩
  · exact ⟨h1, h2, h3, h4, rfl⟩

theorem dispatch_same (s : State) :
    (dispatch s).given = s.given ∧ (dispatch s).kem = s.kem ∧ (dispatch s).token = s.token ∧
      (dispatch s).next = s.next := by
  unfold dispatch
  split
  · exact ⟨rfl, rfl, rfl, rfl⟩
  · rename_i t q _
    split
    · exact ⟨rfl, rfl, rfl, rfl⟩
    · split
      · exact ⟨rfl, rfl, rfl, rfl⟩
      · exact removeUdp_same { s with queue := q }

theorem eff_load (s : State) : Keep s (load s) ∨ Give s (load s) := by
  unfold load
  split
  · exact .inl (keep_same rfl rfl)
  · split
    · exact .inl (keep_same rfl rfl)
    · rename_i t ht
      unfold insertUdp at ht
      split at ht
      · cases ht
      · rename_i v hv
        split at ht
        · cases ht
          unfold hand
          simp only
          split
          · exact .inl (keep_same rfl rfl)
          · rename_i k hk
            split
            · rename_i htx
              split
              · rename_i hrx
                exact .inr ⟨k, v, hk, htx, hrx, hv, rfl, rfl, rfl⟩
              · exact .inl (keep_kem rfl hk rfl rfl (fun h => by cases h))
            · exact .inl (keep_same rfl rfl)
        · cases ht

theorem eff_step (s : State) (e : Event) (h : ∀ id, e ≠ .kex id) :
    Keep s (step s e) ∨ Give s (step s e) := by
  cases e with
  | kex id => exact absurd rfl (h id)
  | create f =>
    left
    simp only [step, create]
    split
    · exact keep_same rfl rfl
    · rename_i k hk
      split
      · split
        · exact keep_kem rfl hk rfl rfl id
        · split
          · split
            · exact keep_none rfl rfl
            · exact keep_kem rfl hk rfl rfl id
          · exact keep_kem rfl hk rfl rfl id
      · split
        · exact keep_none rfl rfl
        · exact keep_same rfl rfl
  | stream l =>
    left; simp only [step, stream]; split <;> exact keep_same rfl rfl
  | load => exact eff_load s
  | dispatch => exact .inl (keep_same (dispatch_same s).1 (dispatch_same s).2.1)
  | dropHalf n =>
    left; simp only [step, dropHalf]; split <;> exact keep_same rfl rfl
  | dropRx id =>
    left
    simp only [step, dropRx]
    split
    · exact keep_same rfl rfl
    · rename_i k hk
      split
      · exact keep_kem rfl hk rfl rfl (fun h => h)
      · exact keep_same rfl rfl
  | fail n => exact .inl (keep_same rfl rfl)
  | deactivate =>
    left; simp only [step, deactivate]; split <;> exact keep_same rfl rfl
  | close => exact .inl (keep_same (close_same s).1 (close_same s).2.1)
  | forget => exact .inl (keep_none rfl rfl)

/-- The exchanges seen, and what was given through them. -/
structure Ids (s : State) (seen : List Nat) : Prop where
  kem : ∀ k, s.kem = some k → k.id ∈ seen
  mem : ∀ p, p ∈ s.given → p.1 ∈ seen
  new : ∀ k, s.kem = some k → k.tx = true → k.id ∉ s.given.map Prod.fst
  once : (s.given.map Prod.fst).Nodup

theorem ids_step {s : State} {seen : List Nat} (h : Ids s seen) (e : Event)
    (he : ∀ id, e ≠ .kex id) : Ids (step s e) seen := by
  rcases eff_step s e he with ⟨hg, hk⟩ | ⟨k, v, hs, htx, _, _, hk, hg, _⟩
  · refine ⟨?_, by rw [hg]; exact h.mem, ?_, by rw [hg]; exact h.once⟩
    · intro k' hk'
      obtain ⟨k, h1, h2, _⟩ := hk k' hk'
      rw [h2]; exact h.kem k h1
    · intro k' hk' hx
      obtain ⟨k, h1, h2, h3⟩ := hk k' hk'
      rw [h2, hg]; exact h.new k h1 (h3 hx)
  · refine ⟨?_, ?_, ?_, ?_⟩
    · intro k' hk'; rw [hk] at hk'; cases hk'; exact h.kem k hs
    · intro p hp
      rw [hg] at hp
      simp only [List.mem_append, List.mem_singleton] at hp
      rcases hp with hp | hp
      · exact h.mem p hp
      · subst hp; exact h.kem k hs
    · intro k' hk' hx; rw [hk] at hk'; cases hk'; cases hx
    · rw [hg]
      simp only [List.map_append, List.map_cons, List.map_nil]
      rw [List.nodup_append]
      refine ⟨h.once, by simp, ?_⟩
      intro a ha b hb
      simp only [List.mem_singleton] at hb
      intro hab
      rw [hab, hb] at ha
      exact h.new k hs htx ha

theorem ids_kex {s : State} {seen : List Nat} (h : Ids s seen) {id : Nat} (hid : id ∉ seen) :
    Ids (kex s id) (id :: seen) := by
  refine ⟨?_, ?_, ?_, h.once⟩
  · intro k hk; cases hk; simp
  · intro p hp; exact List.mem_cons_of_mem _ (h.mem p hp)
  · intro k hk _; cases hk
    intro hm
    obtain ⟨p, hp, hpi⟩ := List.mem_map.mp hm
    exact hid (by have := h.mem p hp; rw [hpi] at this; exact this)

theorem ids_run : ∀ (es : List Event) (s : State) (seen : List Nat), Ids s seen →
    (kexes es).Nodup → (∀ id, id ∈ kexes es → id ∉ seen) → ∃ seen', Ids (run s es) seen'
  | [], _, seen, h, _, _ => ⟨seen, h⟩
  | e :: es, s, seen, h, hn, hd => by
    by_cases he : ∃ id, e = .kex id
    · obtain ⟨id, rfl⟩ := he
      simp only [kexes, List.nodup_cons] at hn
      refine ids_run es (kex s id) (id :: seen) (ids_kex h (hd id (by simp [kexes]))) hn.2 ?_
      intro j hj hm
      rcases List.mem_cons.mp hm with hm | hm
      · subst hm; exact hn.1 hj
      · exact hd j (by simp [kexes, hj]) hm
    · have he' : ∀ id, e ≠ .kex id := fun id hx => he ⟨id, hx⟩
      have hk : kexes (e :: es) = kexes es := by
        cases e <;> first | rfl | exact absurd rfl (he' _)
      rw [hk] at hn hd
      exact ids_run es (step s e) seen (ids_step h e he') hn hd

/-- A registered channel that was given away has its task. -/
def Alive (s : State) : Prop :=
  ∀ v n k, s.vconn = some v → v.chan = some n → (k, n) ∈ s.given → s.task n = true

theorem alive_chan {s t : State} (h : Alive s) (hg : t.given = s.given) (ht : t.task = s.task)
    (hv : ∀ w n, t.vconn = some w → w.chan = some n → ∃ v, s.vconn = some v ∧ v.chan = some n) :
    Alive t := by
  intro w n k hw hn hk
  obtain ⟨v, h1, h2⟩ := hv w n hw hn
  rw [ht]; rw [hg] at hk
  exact h v n k h1 h2 hk

theorem alive_empty {t : State} (hv : ∀ w n, t.vconn = some w → w.chan ≠ some n) : Alive t :=
  fun w n _ hw hn => absurd hn (hv w n hw)

theorem alive_removeUdp {s : State} (h : Alive s) : Alive (removeUdp s) := by
  unfold removeUdp
  split
  · exact h
  · split
    · exact alive_empty (by intro w n hw; cases hw; simp)
    · exact h

theorem alive_lost {s : State} {n : Nat} (h : Mid s n) : Alive (lost s n) := by
  intro w m k hw hm hk
  obtain ⟨v, hv, hc, _, _⟩ := h.reg
  simp only [lost] at hw hk
  rw [hv] at hw; cases hw
  rw [hc] at hm; cases hm
  have := h.low _ hk
  simp at this

theorem alive_load {s : State} (hi : Inv s) (h : Alive s) : Alive (load s) := by
  unfold load
  split
  · exact h
  · have h' : Inv { s with pending := s.pending - 1 } := inv_same hi rfl rfl rfl rfl rfl
    split
    · exact h
    · rename_i t ht
      have hm := mid_insert (s := { s with pending := s.pending - 1 }) h' ht
      unfold hand
      split
      · exact alive_lost hm
      · split
        · split
          · intro w m k hw hc _
            obtain ⟨v, hv, hvc, _, _⟩ := hm.reg
            simp only at hw ⊢
            rw [hv] at hw; cases hw
            rw [hvc] at hc; cases hc
            exact set_same _ _ _
          · exact alive_lost (mid_kem hm _)
        · exact alive_lost hm

theorem alive_step {s : State} (hi : Inv s) (h : Alive s) (e : Event) (he : ∀ n, e ≠ .fail n) :
    Alive (step s e) := by
  cases e with
  | kex id => exact h
  | create f =>
    simp only [step, create]
    split
    · exact h
    · split
      · split
        · exact alive_empty (by intro w n hw; cases hw; simp)
        · split
          · split <;> exact h
          · exact alive_empty (by intro w n hw; cases hw; simp)
      · split <;> exact h
  | stream l =>
    simp only [step, stream]
    split
    · exact h
    · rename_i v hv
      refine alive_chan h rfl rfl ?_
      intro w n hw hn
      cases hw
      exact ⟨v, hv, by rw [← (insertDirect_chan s.want v l).1]; exact hn⟩
  | load => exact alive_load hi h
  | dispatch =>
    simp only [step, dispatch]
    split
    · exact h
    · split
      · exact h
      · split
        · exact h
        · rename_i q _ _ _ _
          exact alive_removeUdp (s := { s with queue := _ }) h
  | dropHalf n => simp only [step, dropHalf]; split <;> exact h
  | dropRx id =>
    simp only [step, dropRx]
    split
    · exact h
    · split <;> exact h
  | fail n => exact absurd rfl (he n)
  | deactivate =>
    simp only [step, deactivate]
    split
    · exact h
    · rename_i v hv
      refine alive_chan h rfl rfl ?_
      intro w n hw hn
      cases hw
      exact ⟨v, hv, hn⟩
  | close => exact alive_empty (by intro w n hw; rw [show step s .close = close s from rfl, (close_same s).2.2.2.2] at hw; cases hw)
  | forget => exact h

theorem alive_run : ∀ (es : List Event) (s : State), Inv s → Alive s → NoFail es →
    Alive (run s es)
  | [], _, _, h, _ => h
  | e :: es, s, hi, h, hn =>
    alive_run es (step s e) (inv_step hi e)
      (alive_step hi h e (fun n he => hn n (by rw [he]; exact List.mem_cons_self)))
      (fun n hm => hn n (List.mem_cons_of_mem _ hm))

/-- The entry of the exchange is that of the connection, and so is what was given. -/
structure Own (s : State) : Prop where
  same : ∀ v k, s.vconn = some v → s.kem = some k → k.id = v.id
  given : ∀ p, p ∈ s.given → s.token p.2 = p.1

/-- How a step changes the id of the connection. -/
theorem vconn_step (s : State) (e : Event) (w : Vconn) (h : (step s e).vconn = some w) :
    (∃ v, s.vconn = some v ∧ w.id = v.id) ∨
      (∃ k, s.kem = some k ∧ w.id = k.id) := by
  cases e with
  | kex id => exact .inl ⟨w, h, rfl⟩
  | create f =>
    simp only [step, create] at h
    split at h
    · exact .inl ⟨w, h, rfl⟩
    · rename_i k hk
      split at h
      · split at h
        · cases h; exact .inr ⟨k, hk, rfl⟩
        · split at h
          · split at h <;> exact .inl ⟨w, h, rfl⟩
          · cases h; exact .inr ⟨k, hk, rfl⟩
      · split at h <;> exact .inl ⟨w, h, rfl⟩
  | stream l =>
    simp only [step, stream] at h
    split at h
    · exact .inl ⟨w, h, rfl⟩
    · rename_i v hv
      cases h
      exact .inl ⟨v, hv, (insertDirect_chan s.want v l).2.1⟩
  | load =>
    simp only [step, load] at h
    split at h
    · exact .inl ⟨w, h, rfl⟩
    · split at h
      · exact .inl ⟨w, h, rfl⟩
      · rename_i t ht
        unfold insertUdp at ht
        split at ht
        · cases ht
        · rename_i v hv
          split at ht
          · cases ht
            refine .inl ⟨v, hv, ?_⟩
            unfold hand at h
            simp only at h
            split at h
            · simp only [lost] at h; cases h; rfl
            · split at h
              · split at h
                · cases h; rfl
                · simp only [lost] at h; cases h; rfl
              · simp only [lost] at h; cases h; rfl
          · cases ht
  | dispatch =>
    simp only [step, dispatch] at h
    split at h
    · exact .inl ⟨w, h, rfl⟩
    · split at h
      · exact .inl ⟨w, h, rfl⟩
      · rename_i v hv
        split at h
        · exact .inl ⟨w, h, rfl⟩
        · simp only [removeUdp, hv] at h
          split at h
          · cases h; exact .inl ⟨v, hv, rfl⟩
          · exact .inl ⟨w, by first | exact h | exact h ▸ hv, rfl⟩
  | dropHalf n =>
    simp only [step, dropHalf] at h
    split at h <;> exact .inl ⟨w, h, rfl⟩
  | dropRx id =>
    simp only [step, dropRx] at h
    split at h
    · exact .inl ⟨w, h, rfl⟩
    · split at h <;> exact .inl ⟨w, h, rfl⟩
  | fail n => exact .inl ⟨w, h, rfl⟩
  | deactivate =>
    simp only [step, deactivate] at h
    split at h
    · exact .inl ⟨w, h, rfl⟩
    · rename_i v hv
      cases h
      exact .inl ⟨v, hv, rfl⟩
  | close =>
    rw [show step s .close = close s from rfl, (close_same s).2.2.2.2] at h; cases h
  | forget => exact .inl ⟨w, h, rfl⟩

/-- Tokens of channels that are there do not change. -/
theorem token_step (s : State) (e : Event) (n : Nat) (hn : n < s.next) :
    (step s e).token n = s.token n := by
  cases e with
  | create f =>
    simp only [step, create]
    split
    · rfl
    · split
      · split
        · rfl
        · split
          · split <;> rfl
          · rfl
      · split <;> rfl
  | stream l => simp only [step, stream]; split <;> rfl
  | load =>
    simp only [step, load]
    split
    · rfl
    · split
      · rfl
      · rename_i t ht
        unfold insertUdp at ht
        split at ht
        · cases ht
        · split at ht
          · cases ht
            have : n ≠ s.next := by omega
            unfold hand
            simp only
            split
            · simp [lost, set, this]
            · split
              · split
                · simp [set, this]
                · simp [lost, set, this]
              · simp [lost, set, this]
          · cases ht
  | dispatch => exact congrFun (dispatch_same s).2.2.1 n
  | dropHalf m => simp only [step, dropHalf]; split <;> rfl
  | dropRx id =>
    simp only [step, dropRx]
    split
    · rfl
    · split <;> rfl
  | deactivate => simp only [step, deactivate]; split <;> rfl
  | close => exact congrFun (close_same s).2.2.1 n
  | _ => rfl

theorem own_step {s : State} (hi : Inv s) (h : Own s) (e : Event)
    (he : ∀ id, e = .kex id → s.vconn = none) : Own (step s e) := by
  by_cases hx : ∃ id, e = .kex id
  · obtain ⟨id, rfl⟩ := hx
    refine ⟨?_, h.given⟩
    intro v k hv
    have : s.vconn = some v := hv
    rw [he id rfl] at this; cases this
  · have hx' : ∀ id, e ≠ .kex id := fun id h => hx ⟨id, h⟩
    have same : ∀ w k', (step s e).vconn = some w → (step s e).kem = some k' →
        (∃ k, s.kem = some k ∧ k'.id = k.id) → k'.id = w.id := by
      intro w k' hw _ ⟨k, hk, hid⟩
      rcases vconn_step s e w hw with ⟨v, hv, h1⟩ | ⟨j, hj, h1⟩
      · rw [hid, h1]; exact h.same v k hv hk
      · rw [hj] at hk; cases hk; rw [hid, h1]
    rcases eff_step s e hx' with ⟨hg, hk⟩ | ⟨k, v, hs, htx, _, hv, hk, hg, ht⟩
    · refine ⟨?_, ?_⟩
      · intro w k' hw hk'
        obtain ⟨k, h1, h2, _⟩ := hk k' hk'
        exact same w k' hw hk' ⟨k, h1, h2⟩
      · intro p hp
        rw [hg] at hp
        rw [token_step s e p.2 (hi.low p hp)]
        exact h.given p hp
    · refine ⟨?_, ?_⟩
      · intro w k' hw hk'
        refine same w k' hw hk' ⟨k, hs, ?_⟩
        rw [hk] at hk'; cases hk'; rfl
      · intro p hp
        rw [hg] at hp
        simp only [List.mem_append, List.mem_singleton] at hp
        rcases hp with hp | hp
        · rw [token_step s e p.2 (hi.low p hp)]
          exact h.given p hp
        · subst hp
          rw [ht]
          simp only [set_same]
          exact (h.same v k hv hs).symm

theorem own_run : ∀ (es : List Event) (s : State), Inv s → Own s → OneByOne s es → Own (run s es)
  | [], _, _, h, _ => h
  | e :: es, s, hi, h, ho => own_run es (step s e) (inv_step hi e) (own_step hi h e ho.1) ho.2

theorem sender_removeUdp {s : State} (h : ∀ v n, s.vconn = some v → v.udp = some n → v.chan = some n) :
    ∀ v n, (removeUdp s).vconn = some v → v.udp = some n → v.chan = some n := by
  unfold removeUdp
  split
  · exact h
  · split
    · intro v n hv hn; cases hv; cases hn
    · exact h

theorem sender_hand {s : State} {n : Nat} (h : ∀ v n, s.vconn = some v → v.udp = some n → v.chan = some n) :
    ∀ v m, (hand s n).vconn = some v → v.udp = some m → v.chan = some m := by
  unfold hand
  split
  · exact h
  · split
    · split <;> exact h
    · exact h

/-- The sender in the table is that of the channel in the table. -/
theorem sender_step {s : State} (h : ∀ v n, s.vconn = some v → v.udp = some n → v.chan = some n)
    (e : Event) : ∀ v n, (step s e).vconn = some v → v.udp = some n → v.chan = some n := by
  cases e with
  | create f =>
    simp only [step, create]
    split
    · exact h
    · split
      · split
        · intro v n hv hn; cases hv; cases hn
        · split
          · split <;> exact h
          · intro v n hv hn; cases hv; cases hn
      · split <;> exact h
  | stream l =>
    simp only [step, stream]
    split
    · exact h
    · rename_i v hv
      intro u n hu hn
      cases hu
      unfold insertDirect at hn ⊢
      split at hn
      · split at hn
        · rename_i h1; rw [if_pos h1]; exact h v n hv hn
        · rename_i h1; rw [if_neg h1]
          split at hn
          · cases hn
          · rename_i h2; rw [if_neg h2]; exact h v n hv hn
      · cases hn
  | load =>
    simp only [step, load]
    split
    · exact h
    · split
      · exact h
      · rename_i t ht
        refine sender_hand ?_
        unfold insertUdp at ht
        split at ht
        · cases ht
        · split at ht
          · cases ht
            intro v n hv hn
            cases hv
            exact hn
          · cases ht
  | dispatch =>
    simp only [step, dispatch]
    split
    · exact h
    · split
      · exact h
      · split
        · exact h
        · exact sender_removeUdp (s := { s with queue := _ }) h
  | dropHalf n => simp only [step, dropHalf]; split <;> exact h
  | dropRx id =>
    simp only [step, dropRx]
    split
    · exact h
    · split <;> exact h
  | deactivate =>
    simp only [step, deactivate]
    split
    · exact h
    · rename_i v hv
      intro u n hu hn
      cases hu
      exact h v n hv hn
  | close =>
    intro v n hv
    rw [show step s .close = close s from rfl, (close_same s).2.2.2.2] at hv; cases hv
  | kex id => exact h
  | fail n => exact h
  | forget => exact h

theorem run_append (s : State) (as bs : List Event) : run s (as ++ bs) = run (run s as) bs := by
  induction as generalizing s with
  | nil => rfl
  | cons a as ih => exact ih (step s a)

end Verif.UdpLife

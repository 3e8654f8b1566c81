/-
Passwords are only compared with each other and with the empty one, cids only with each other: runs with other passwords
and other cids in the same relation are the same but for the names.
-/
import Verif.PeerKex.Lemmas

namespace Verif.PeerKex

def Key.ren (f : Nat → Nat) (k : Key) : Key := ⟨k.x, k.y, f k.psk⟩
def Kem.ren (f : Nat → Nat) (k : Kem) : Kem := ⟨k.con, k.id, f k.psk, k.punch⟩
def Vconn.ren (f : Nat → Nat) (v : Vconn) : Vconn := ⟨v.key.ren f, v.id, v.active⟩
def Punch.ren (f : Nat → Nat) (p : Punch) : Punch := ⟨p.n, p.key.ren f, p.id, p.cancelled⟩
def Ev.ren (f : Nat → Nat) : Ev → Ev
  | .channel k id => .channel (k.ren f) id
  | .request => .request
  | .failed => .failed
  | .disconnected => .disconnected
def Msg.ren (f : Nat → Nat) : Msg → Msg
  | .stage1 x y psk id => .stage1 x y (f psk) id
  | .request => .request
  | .accept => .accept
  | .stage0 x id => .stage0 x id
  | .stage2 => .stage2
  | .disconnect t => .disconnect t
  | .error => .error

/-- Other passwords, and cids `m` and `p`. -/
def Slot.ren (f : Nat → Nat) (m p : Nat) (s : Slot) : Slot :=
  { who := s.who, me := m, peer := p, kem := s.kem.map (·.ren f), vconn := s.vconn.map (·.ren f), psk := s.psk.map f,
    asked := s.asked, stale := s.stale.map (·.ren f), punches := s.punches.map (·.ren f), told := s.told.map (·.ren f),
    panicked := s.panicked, made := s.made.map fun c => (c.1.ren f, c.2) }

/-- The same of what a client does. -/
def both (f : Nat → Nat) (m p : Nat) (r : Slot × List Msg) : Slot × List Msg := (r.1.ren f m p, r.2.map (·.ren f))

section
variable {f : Nat → Nat} {m p : Nat} (s : Slot)

theorem ren_tell (e : Ev) : tell (s.ren f m p) (e.ren f) = (tell s e).ren f m p := by
  simp [tell, Slot.ren]

theorem ren_cancel (q : Option Nat) : cancel (s.ren f m p) q = (cancel s q).ren f m p := by
  simp only [cancel, Slot.ren, List.map_map]
  congr 2
  funext a
  by_cases h : some a.n = q <;> simp [Punch.ren, h]

theorem ren_punch : (s.ren f m p).punch = s.punch := by
  unfold Slot.punch Slot.ren
  cases s.kem <;> rfl

theorem ren_setKem (k : Kem) : setKem (s.ren f m p) (k.ren f) = (setKem s k).ren f m p := by
  unfold setKem
  rw [ren_punch, ren_cancel]
  simp [Slot.ren]

theorem ren_getD (h0 : f 0 = 0) : (s.ren f m p).psk.getD 0 = f (s.psk.getD 0) := by
  unfold Slot.ren
  cases s.psk <;> simp [h0]

theorem ren_active : (s.ren f m p).vconn.any (·.active) = s.vconn.any (·.active) := by
  unfold Slot.ren
  cases s.vconn <;> rfl

/-- The same of the making of a connection. -/
def Made.ren (f : Nat → Nat) (m p : Nat) : Made → Made
  | .ok s => .ok (s.ren f m p)
  | .duplicate => .duplicate
  | .panic => .panic

theorem ren_create (k : Key) (id : Nat) : create (s.ren f m p) (k.ren f) id = (create s k id).ren f m p := by
  unfold create
  rw [ren_active]
  cases h : s.psk with
  | none => simp [Slot.ren, h, Made.ren]
  | some q =>
    simp only [Slot.ren, h, Option.map_some]
    split
    · rfl
    · simp [Made.ren, Slot.ren, Vconn.ren, h]

variable (h0 : f 0 = 0) (hf : ∀ a b, f a = f b → a = b) (ho : s.me < s.peer ↔ m < p)
include h0

theorem ren_onAccept (n : Nat) : onAccept (s.ren f m p) n = both f m p (onAccept s n) := by
  unfold onAccept both
  rw [ren_getD s h0]
  exact Prod.ext (ren_setKem s ⟨_, _, _, _⟩) rfl

include ho

theorem ren_onStage0 (n : Nat) (x : Nonce) (id : Nat) :
    onStage0 (s.ren f m p) n x id = both f m p (onStage0 s n x id) := by
  unfold onStage0 both
  rw [ren_getD s h0]
  have h1 : (s.ren f m p).kem.any (·.con.isSome) = s.kem.any (·.con.isSome) := by
    unfold Slot.ren; cases s.kem <;> rfl
  have h2 : decide ((s.ren f m p).me < (s.ren f m p).peer) = decide (s.me < s.peer) := by
    simp only [decide_eq_decide]; exact ho.symm
  simp only [h1, h2]
  split
  · rfl
  · exact Prod.ext (ren_setKem s ⟨_, _, _, _⟩) rfl

theorem ren_onRequest : onRequest (s.ren f m p) = both f m p (onRequest s) := by
  unfold onRequest both
  rw [ren_getD s h0]
  show (if s.asked then if m < p then _ else _ else _) = _
  by_cases ha : s.asked
  · simp only [ha, if_true]
    by_cases hl : s.me < s.peer
    · rw [if_pos hl, if_pos (ho.1 hl)]
      exact Prod.ext (ren_setKem s ⟨_, _, _, _⟩) rfl
    · rw [if_neg hl, if_neg (fun q => hl (ho.2 q))]; rfl
  · simp only [ha]
    exact Prod.ext (ren_tell s .request) rfl

omit ho h0

theorem ren_onDisconnect (t : Option Nat) : onDisconnect (s.ren f m p) t = both f m p (onDisconnect s t) := by
  unfold onDisconnect both
  have h1 : (s.ren f m p).vconn = s.vconn.map (·.ren f) := rfl
  have h2 : (t.any fun t => (s.ren f m p).vconn.any fun v => v.id ≠ t) = (t.any fun t => s.vconn.any fun v => v.id ≠ t) := by
    rw [h1]; cases s.vconn <;> rfl
  rw [h2]
  split
  · rfl
  · refine Prod.ext ?_ rfl
    show tell _ _ = _
    simp only [tell, Slot.ren, List.map_append]
    cases s.vconn <;> cases s.stale <;> simp [Vconn.ren, Ev.ren]

include hf

theorem ren_onStage1 (n : Nat) (x y : Nonce) (psk : Nat) :
    onStage1 (s.ren f m p) n x y (f psk) = both f m p (onStage1 s n x y psk) := by
  unfold onStage1
  cases hk : s.kem with
  | none => simp [Slot.ren, hk, both]
  | some k =>
    have e : (s.ren f m p).kem = some (k.ren f) := by simp [Slot.ren, hk]
    simp only [e]
    have e1 : ({ cancel (s.ren f m p) (k.ren f).punch with kem := none } : Slot) =
        ({ cancel s k.punch with kem := none } : Slot).ren f m p := by
      rw [ren_cancel]; simp [Slot.ren, Kem.ren]
    rw [e1]
    generalize ({ cancel s k.punch with kem := none } : Slot) = s1
    show (match k.con with | none => _ | some (.bob _ _) => _ | some (.alice x0) => _) = _
    cases hc : k.con with
    | none => rfl
    | some c =>
      cases c with
      | bob _ _ => exact Prod.ext (ren_tell s1 .failed) rfl
      | alice x0 =>
        simp only
        have e2 : (x0 = x ∧ (k.ren f).psk = f psk) ↔ (x0 = x ∧ k.psk = psk) :=
          and_congr_right (fun _ => ⟨fun q => hf _ _ q, fun q => congrArg f q⟩)
        by_cases h : x0 = x ∧ k.psk = psk
        · rw [if_pos h, if_pos (e2.2 h)]
          have e3 := ren_create (f := f) (m := m) (p := p) s1 ⟨x, y, psk⟩ k.id
          have e4 : create (s1.ren f m p) ⟨x, y, f psk⟩ (k.ren f).id = _ := e3
          rw [e4]
          cases create s1 ⟨x, y, psk⟩ k.id with
          | panic =>
            rw [ren_cancel]
            simp [Made.ren, both, Slot.ren, Kem.ren]
          | duplicate => simp [Made.ren, both]
          | ok s2 => simp [Made.ren, both, Slot.ren, Kem.ren, Punch.ren, Key.ren, Msg.ren]
        · rw [if_neg h, if_neg (fun q => h (e2.1 q))]
          exact Prod.ext (ren_tell s1 .failed) rfl

omit hf

theorem ren_onStage2 (n : Nat) : onStage2 (s.ren f m p) n = both f m p (onStage2 s n) := by
  unfold onStage2
  cases hk : s.kem with
  | none => simp [Slot.ren, hk, both]
  | some k =>
    have e : (s.ren f m p).kem = some (k.ren f) := by simp [Slot.ren, hk]
    simp only [e]
    have e1 : setKem (s.ren f m p) { k.ren f with con := none, punch := some n } =
        (setKem s { k with con := none, punch := some n }).ren f m p :=
      ren_setKem s { k with con := none, punch := some n }
    rw [e1]
    generalize setKem s { k with con := none, punch := some n } = s1
    show (match k.con with | none => _ | some (.alice _) => _ | some (.bob x y) => _) = _
    cases hc : k.con with
    | none => rfl
    | some c =>
      cases c with
      | alice _ => rfl
      | bob x y =>
        simp only
        have e3 := ren_create (f := f) (m := m) (p := p) s1 ⟨x, y, k.psk⟩ k.id
        have e4 : create (s1.ren f m p) ⟨x, y, (k.ren f).psk⟩ (k.ren f).id = _ := e3
        rw [e4]
        cases create s1 ⟨x, y, k.psk⟩ k.id with
        | panic => simp [Made.ren, both, Slot.ren]
        | duplicate => simp [Made.ren, both]
        | ok s2 => simp [Made.ren, both, Slot.ren, Kem.ren, Punch.ren, Key.ren]

include h0 hf ho

theorem ren_handle (n : Nat) (o : Msg) : handle (s.ren f m p) n (o.ren f) = both f m p (handle s n o) := by
  unfold handle
  show (if s.panicked then _ else _) = _
  split
  · rfl
  · cases o with
    | request => exact ren_onRequest s h0 ho
    | accept => exact ren_onAccept s h0 n
    | stage0 x id => exact ren_onStage0 s h0 ho n x id
    | stage1 x y psk id => exact ren_onStage1 s hf n x y psk
    | stage2 => exact ren_onStage2 s n
    | disconnect t => exact ren_onDisconnect s t
    | error => exact Prod.ext (ren_tell s .failed) rfl

omit h0 hf ho

theorem ren_ask (q : Nat) (o : Msg) : ask (s.ren f m p) (f q) (o.ren f) = both f m p (ask s q o) := by
  unfold ask
  show (if s.panicked then _ else _) = _
  split
  · rfl
  · simp [both, Slot.ren]

theorem ren_dropChannel (id : Nat) : dropChannel (s.ren f m p) id = both f m p (dropChannel s id) := by
  unfold dropChannel
  show (if s.panicked then _ else _) = _
  split
  · rfl
  · cases hv : s.vconn with
    | none =>
      have e : (s.ren f m p).vconn = none := by simp [Slot.ren, hv]
      simp only [e]
      exact Prod.ext (ren_tell s .disconnected) rfl
    | some v =>
      have e : (s.ren f m p).vconn = some (v.ren f) := by simp [Slot.ren, hv]
      simp only [e]
      show (if v.id = id then _ else _) = _
      split
      · simp [both, Slot.ren, Vconn.ren, Msg.ren]
      · rfl

theorem ren_find (l : List Punch) (n : Nat) :
    (l.map (·.ren f)).find? (·.n = n) = (l.find? (·.n = n)).map (·.ren f) := by
  induction l with
  | nil => rfl
  | cons a l ih =>
    simp only [List.map_cons, List.find?_cons]
    by_cases h : a.n = n
    · have : (a.ren f).n = n := h
      simp [h, this]
    · have : (a.ren f).n ≠ n := h
      simp [h, this, ih]

theorem ren_filter (l : List Punch) (n : Nat) :
    (l.map (·.ren f)).filter (·.n ≠ n) = (l.filter (·.n ≠ n)).map (·.ren f) := by
  induction l with
  | nil => rfl
  | cons a l ih =>
    simp only [List.map_cons, List.filter_cons]
    have : (a.ren f).n = a.n := rfl
    rw [this, ih]
    split <;> rfl

theorem ren_punched (n : Nat) (u : Bool) : punched (s.ren f m p) n u = both f m p (punched s n u) := by
  unfold punched
  have e0 : (s.ren f m p).punches = s.punches.map (·.ren f) := rfl
  rw [e0, ren_find]
  cases s.punches.find? (·.n = n) with
  | none => rfl
  | some q =>
    simp only [Option.map_some]
    have e1 : ({ s.ren f m p with punches := (s.punches.map (·.ren f)).filter (·.n ≠ n) } : Slot) =
        ({ s with punches := s.punches.filter (·.n ≠ n) } : Slot).ren f m p := by
      rw [ren_filter]; rfl
    rw [e1]
    show (if q.cancelled && !u then _ else _) = _
    split
    · exact ren_dropChannel _ _
    · exact Prod.ext (ren_tell _ (.channel _ _)) rfl

end

/-! ### Worlds -/

def World.ren (f : Nat → Nat) (ca cb : Nat) (w : World) : World :=
  { a := w.a.ren f ca cb, b := w.b.ren f cb ca, upA := w.upA.map (·.ren f), upB := w.upB.map (·.ren f),
    downA := w.downA.map (·.ren f), downB := w.downB.map (·.ren f), postA := w.postA, postB := w.postB,
    linked := w.linked, next := w.next }

/-- The same action with other passwords. -/
def Act.ren (f : Nat → Nat) : Act → Act
  | .connect i q => .connect i (f q)
  | .respond i q => .respond i (f q)
  | .serve i k => .serve i k
  | .deliver i k => .deliver i k
  | .punched i n u => .punched i n u
  | .dropped i id => .dropped i id

/-- The cid of a client in the new world, and of its peer. -/
def Side.cid (ca cb : Nat) : Side → Nat
  | .a => ca
  | .b => cb

section
variable {f : Nat → Nat} {ca cb : Nat} (w : World)

theorem ren_slot (i : Side) : (w.ren f ca cb).slot i = (w.slot i).ren f (i.cid ca cb) (i.flip.cid ca cb) := by
  cases i <;> rfl

theorem ren_did (i : Side) (r : Slot × List Msg) :
    (w.ren f ca cb).did i (both f (i.cid ca cb) (i.flip.cid ca cb) r) = (w.did i r).ren f ca cb := by
  cases i <;> simp [World.did, World.ren, World.setSlot, World.setUp, World.up, both, Side.cid, Side.flip]

theorem ren_up (i : Side) : (w.ren f ca cb).up i = (w.up i).map (·.ren f) := by cases i <;> rfl
theorem ren_down (i : Side) : (w.ren f ca cb).down i = (w.down i).map (·.ren f) := by cases i <;> rfl

theorem eraseIdx_map {α β : Type} (g : α → β) (l : List α) (k : Nat) :
    (l.map g).eraseIdx k = (l.eraseIdx k).map g := by
  induction l generalizing k with
  | nil => rfl
  | cons a l ih => cases k <;> simp [ih]

theorem ren_setUp (i : Side) (l : List Msg) :
    (w.ren f ca cb).setUp i (l.map (·.ren f)) = (w.setUp i l).ren f ca cb := by cases i <;> rfl
theorem ren_setDown (i : Side) (l : List Msg) :
    (w.ren f ca cb).setDown i (l.map (·.ren f)) = (w.setDown i l).ren f ca cb := by cases i <;> rfl

theorem ren_relay (i : Side) (o : Msg) : relay (w.ren f ca cb) i (o.ren f) = (relay w i o).ren f ca cb := by
  have m1 : Msg.ren f .request = .request := rfl
  have m2 : Msg.ren f .accept = .accept := rfl
  have m3 : ∀ t, Msg.ren f (.disconnect t) = .disconnect t := fun _ => rfl
  have m4 : Msg.ren f .error = .error := rfl
  have m5 : Msg.ren f .stage2 = .stage2 := rfl
  have m6 : ∀ x id, Msg.ren f (.stage0 x id) = .stage0 x id := fun _ _ => rfl
  have m7 : ∀ x y q id, Msg.ren f (.stage1 x y q id) = .stage1 x y (f q) id := fun _ _ _ _ => rfl
  cases o <;> cases i <;> cases hA : w.postA <;> cases hB : w.postB <;> cases hl : w.linked <;>
    simp [relay, World.post, World.ren, Side.flip, World.send, World.setDown, World.down, World.setPost, m1, m2, m3, m4,
      m5, m6, m7, hA, hB, hl]

theorem ren_step (h0 : f 0 = 0) (hf : ∀ a b, f a = f b → a = b) (ha : w.a.me < w.a.peer ↔ ca < cb)
    (hb : w.b.me < w.b.peer ↔ cb < ca) (t : Act) :
    step (w.ren f ca cb) (t.ren f) = (step w t).ren f ca cb := by
  cases t with
  | connect i q =>
    simp only [Act.ren, step]
    rw [ren_slot, ← ren_did]
    exact congrArg _ (ren_ask (w.slot i) q .request)
  | respond i q =>
    simp only [Act.ren, step]
    rw [ren_slot]
    have e : Ev.request ∈ ((w.slot i).ren f (i.cid ca cb) (i.flip.cid ca cb)).told ↔ Ev.request ∈ (w.slot i).told := by
      simp only [Slot.ren, List.mem_map]
      constructor
      · rintro ⟨e, h1, h2⟩
        cases e <;> simp [Ev.ren] at h2
        exact h1
      · exact fun h => ⟨_, h, rfl⟩
    by_cases h : Ev.request ∈ (w.slot i).told
    · rw [if_pos h, if_pos (e.2 h), ← ren_did]
      exact congrArg _ (ren_ask (w.slot i) q .accept)
    · rw [if_neg h, if_neg (fun q => h (e.1 q))]
  | serve i k =>
    simp only [Act.ren, step]
    rw [ren_up, List.getElem?_map]
    cases (w.up i)[k]? with
    | none => rfl
    | some o =>
      simp only [Option.map_some]
      rw [eraseIdx_map, ren_setUp, ren_relay]
  | deliver i k =>
    simp only [Act.ren, step]
    rw [ren_down, List.getElem?_map]
    cases (w.down i)[k]? with
    | none => rfl
    | some o =>
      simp only [Option.map_some]
      have ho : (w.slot i).me < (w.slot i).peer ↔ i.cid ca cb < i.flip.cid ca cb := by cases i <;> assumption
      have e := ren_handle (w.slot i) h0 hf ho w.next o
      have e1 : (w.ren f ca cb).next = w.next := rfl
      rw [eraseIdx_map, ren_setDown, ren_slot, e1, e, ren_did]
      rfl
  | punched i n u =>
    simp only [Act.ren, step]
    rw [ren_slot, ren_punched, ren_did]
  | dropped i id =>
    simp only [Act.ren, step]
    rw [ren_slot]
    have e : ∀ g : Ev → Bool, (∀ a, g (a.ren f) = g a) →
        ((w.slot i).ren f (i.cid ca cb) (i.flip.cid ca cb)).told.any g = (w.slot i).told.any g := by
      intro g hg
      simp only [Slot.ren, List.any_map]
      congr 1
      funext a
      exact hg a
    rw [e _ (fun a => by cases a <;> rfl)]
    split
    · rw [ren_dropChannel, ren_did]
    · rfl

end

end Verif.PeerKex

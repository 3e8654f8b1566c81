import Verif.NetRwLock.Shape

/-! Every step of the lock is a step of its shape. -/
namespace Verif.NetRwLock

theorem wins_swap (w : Bool) (t t' : Int) : wins (!w) t' t = !wins w t t' := by
  unfold wins
  by_cases h : t = t'
  · subst h; simp
  · have h' : ¬ t' = t := fun e => h e.symm
    simp only [h, h', if_false]
    rw [Bool.eq_iff_iff]; simp; omega

/-- A packet and its shape; `v`: the value most recently written, `t`: the time of the last request of the sender. -/
def MRel (v : Nat) (t : Int) : Msg → AMsg → Prop
  | .tryAcquire t' k, .tryAcquire k' cur => k = k' ∧ (cur = true → t' = t)
  | .releasedWrite u, .releasedWrite fresh => fresh = true → u = v
  | .releasedRead, .releasedRead => True
  | .lockAcquired, .lockAcquired => True
  | .releasedVerified, .releasedVerified => True
  | _, _ => False

/-- Packets and their shapes. -/
def LRel (v : Nat) (t : Int) : List Msg → List AMsg → Prop
  | [], [] => True
  | m :: r, m' :: r' => MRel v t m m' ∧ LRel v t r r'
  | _, _ => False

theorem lrel_append {v : Nat} {t : Int} {l m : List Msg} {l' m' : List AMsg} (h : LRel v t l l') (h' : LRel v t m m') :
    LRel v t (l ++ m) (l' ++ m') := by
  induction l generalizing l' with
  | nil => cases l' with
    | nil => exact h'
    | cons _ _ => exact h.elim
  | cons x r ih => cases l' with
    | nil => exact h.elim
    | cons _ _ => exact ⟨h.1, ih h.2⟩

theorem lrel_oldRequest {v : Nat} {t t' : Int} {l : List Msg} {l' : List AMsg} (h : LRel v t l l') :
    LRel v t' l (l'.map oldRequest) := by
  induction l generalizing l' with
  | nil => cases l' with
    | nil => exact h
    | cons _ _ => exact h.elim
  | cons x r ih => cases l' with
    | nil => exact h.elim
    | cons y _ =>
      refine ⟨?_, ih h.2⟩
      have h := h.1
      cases x <;> cases y <;> simp_all [MRel, oldRequest]

theorem lrel_oldValue {v v' : Nat} {t : Int} {l : List Msg} {l' : List AMsg} (h : LRel v t l l') :
    LRel v' t l (l'.map oldValue) := by
  induction l generalizing l' with
  | nil => cases l' with
    | nil => exact h
    | cons _ _ => exact h.elim
  | cons x r ih => cases l' with
    | nil => exact h.elim
    | cons y _ =>
      refine ⟨?_, ih h.2⟩
      have h := h.1
      cases x <;> cases y <;> simp_all [MRel, oldValue]

/-- The time of a request that is waiting. -/
def St.time : St → Option Int
  | .active _ _ t => some t
  | .losing _ _ t => some t
  | _ => none

/-- One side of the system and one side of a shape. `v`: the value most recently written; `u`: the value of the other
endpoint; `tx`, `ty`: times of the last requests. -/
structure SRel (initiator : Bool) (v u : Nat) (tx ty : Int) (x : Node) (inbox outbox : List Msg) (s : Side) : Prop where
  st : absSt x.st = s.st
  time : ∀ t, x.st.time = some t → t = tx
  fx : s.fx = true → x.val = v
  fy : s.fy = true → u = v
  bit : s.bit = wins initiator tx ty
  inb : LRel v ty inbox s.inbox
  out : LRel v tx outbox s.outbox

/-- The value most recently written after an action of `x`. -/
def left (x : Node) (v : Nat) : Act → Nat
  | .write u => if x.st = .writing then u else v
  | _ => v

/-- The time of the last request after an action of `x`. -/
def asked (x : Node) (tx : Int) : Act → Int
  | .request _ t => if x.st = .idle then t else tx
  | _ => tx

theorem sim_request {i : Bool} {v u : Nat} {tx ty : Int} {x : Node} {inbox outbox : List Msg} {s : Side}
    (h : SRel i v u tx ty x inbox outbox s) (k : Kind) (t : Int) :
    ∃ s' ∈ s :: aRequest s k, SRel i v u (asked x tx (.request k t)) ty { x with st := (request x.st k t).1 } inbox
      (outbox ++ (request x.st k t).2) s' := by
  obtain ⟨st, val, pan⟩ := x
  obtain ⟨ast, fx, fy, bt, ain, aout⟩ := s
  obtain ⟨h1, h2, h3, h4, h5, h6, h7⟩ := h
  simp only at h1 h2 h3 h4 h5 h6 h7
  subst h1
  have idleCase : ∀ k, ∃ s' ∈ (⟨.idle, fx, fy, bt, ain, aout⟩ : Side) :: aRequest ⟨.idle, fx, fy, bt, ain, aout⟩ k,
      SRel i v u t ty ⟨.active k k t, val, pan⟩ inbox (outbox ++ [.tryAcquire t k]) s' := fun k => by
    refine ⟨⟨.active k k, fx, fy, wins i t ty, ain, aout.map oldRequest ++ [.tryAcquire k true]⟩, ?_, ?_⟩
    · cases k <;> cases wins i t ty <;> simp [aRequest]
    · exact ⟨rfl, fun t' e => by simpa [St.time] using e.symm, h3, h4, rfl, h6,
        lrel_append (lrel_oldRequest h7) ⟨⟨rfl, fun _ => rfl⟩, trivial⟩⟩
  have stay : ∃ s' ∈ (⟨absSt st, fx, fy, bt, ain, aout⟩ : Side) :: aRequest ⟨absSt st, fx, fy, bt, ain, aout⟩ k,
      SRel i v u tx ty ⟨st, val, pan⟩ inbox (outbox ++ []) s' :=
    ⟨_, List.mem_cons_self .., ⟨rfl, h2, h3, h4, h5, h6, by simpa using h7⟩⟩
  have move : ∀ st', st'.time = none →
      (⟨absSt st', fx, fy, bt, ain, aout⟩ : Side) ∈ aRequest ⟨absSt st, fx, fy, bt, ain, aout⟩ k →
      ∃ s' ∈ (⟨absSt st, fx, fy, bt, ain, aout⟩ : Side) :: aRequest ⟨absSt st, fx, fy, bt, ain, aout⟩ k,
      SRel i v u tx ty ⟨st', val, pan⟩ inbox (outbox ++ []) s' := fun st' ht hm =>
    ⟨_, List.mem_cons_of_mem _ hm, ⟨rfl, fun t e => (by rw [ht] at e; cases e), h3, h4, h5, h6, by simpa using h7⟩⟩
  cases st with
  | idle => cases k <;> simpa [request, asked, absSt] using idleCase _
  | lent hold n =>
    cases k <;> cases hold <;>
      first | exact stay | exact move (.lent .read (n + 1)) rfl (List.mem_singleton.2 rfl)
  | reading n =>
    cases k with
    | write => exact stay
    | read => exact ⟨_, List.mem_cons_self .., rfl, fun _ e => (by cases e), h3, h4, h5, h6, by
        rw [show (request (.reading n) .read t).2 = [] from rfl, List.append_nil]; exact h7⟩
  | misWrite n => cases k <;> first | exact stay | exact move (.misWrite (n + 1)) rfl (List.mem_singleton.2 rfl)
  | dropping hold adj store =>
    cases k <;> cases store <;>
      first | exact stay | exact move (.dropping hold adj (some (_ + 1))) rfl (List.mem_singleton.2 rfl)
  | dropYield hold store =>
    cases k <;> cases store <;>
      first | exact stay | exact move (.dropYield hold (some (_ + 1))) rfl (List.mem_singleton.2 rfl)
  | _ => cases k <;> exact stay

/-- A step that changes only the state and sends packets. -/
theorem srel_move {i : Bool} {v u : Nat} {tx ty : Int} {st : St} {val : Nat} {pan : Bool} {inbox outbox : List Msg} {s : Side}
    (h : SRel i v u tx ty ⟨st, val, pan⟩ inbox outbox s) (st' : St) (pan' : Bool) (ms : List Msg) (ams : List AMsg)
    (ht : ∀ t, st'.time = some t → st.time = some t) (hm : LRel v tx ms ams) :
    SRel i v u tx ty ⟨st', val, pan'⟩ inbox (outbox ++ ms) { s with st := absSt st', outbox := s.outbox ++ ams } :=
  ⟨rfl, fun t e => h.time t (ht t e), h.fx, h.fy, h.bit, h.inb, lrel_append h.out hm⟩

/-- A step that changes only the state. -/
theorem srel_go {i : Bool} {v u : Nat} {tx ty : Int} {st : St} {val : Nat} {pan : Bool} {inbox outbox : List Msg} {s : Side}
    (h : SRel i v u tx ty ⟨st, val, pan⟩ inbox outbox s) (st' : St) (pan' : Bool) (ht : st'.time = none) :
    SRel i v u tx ty ⟨st', val, pan'⟩ inbox (outbox ++ []) { s with st := absSt st' } :=
  ⟨rfl, fun t e => (by rw [show St.time _ = none from ht] at e; cases e), h.fx, h.fy, h.bit, h.inb, by simpa using h.out⟩

theorem srel_stay {i : Bool} {v u : Nat} {tx ty : Int} {x : Node} {inbox outbox : List Msg} {s : Side}
    (h : SRel i v u tx ty x inbox outbox s) (pan' : Bool) :
    SRel i v u tx ty { x with panics := pan' } inbox (outbox ++ []) s :=
  ⟨h.st, h.time, h.fx, h.fy, h.bit, h.inb, by simpa using h.out⟩

theorem sim_releaseRead {i : Bool} {v u : Nat} {tx ty : Int} {x : Node} {inbox outbox : List Msg} {s : Side}
    (h : SRel i v u tx ty x inbox outbox s) :
    ∃ s' ∈ s :: aReleaseRead s, SRel i v u tx ty (releaseRead x).1 inbox (outbox ++ (releaseRead x).2) s' := by
  obtain ⟨st, val, pan⟩ := x
  obtain ⟨ast, fx, fy, bt, ain, aout⟩ := s
  obtain rfl : absSt st = ast := h.st
  have stay := srel_stay h pan
  have move := srel_go h
  cases st with
  | reading n =>
    cases n with
    | zero =>
      exact ⟨_, List.mem_cons_of_mem _ (List.mem_singleton.2 rfl),
        srel_move h (.dropping .read false none) pan [.releasedRead] [.releasedRead] (by intro t e; cases e) ⟨trivial, trivial⟩⟩
    | succ n => exact ⟨_, List.mem_cons_self .., move (.reading n) pan rfl⟩
  | lent hold n =>
    cases hold with
    | write => exact ⟨_, List.mem_cons_self .., stay⟩
    | read =>
      rcases n with _ | _ | n
      · exact ⟨_, List.mem_cons_self .., stay⟩
      · exact ⟨_, List.mem_cons_of_mem _ (List.mem_singleton.2 rfl), move (.lent .read 0) pan rfl⟩
      · exact ⟨_, List.mem_cons_self .., move (.lent .read (n + 1)) pan rfl⟩
  | misWrite n =>
    rcases n with _ | _ | n
    · exact ⟨_, List.mem_cons_self .., stay⟩
    · exact ⟨_, List.mem_cons_of_mem _ (List.mem_singleton.2 rfl), move (.misWrite 0) pan rfl⟩
    · exact ⟨_, List.mem_cons_self .., move (.misWrite (n + 1)) pan rfl⟩
  | dropping hold adj store =>
    rcases store with _ | _ | _ | n
    · exact ⟨_, List.mem_cons_self .., stay⟩
    · exact ⟨_, List.mem_cons_self .., stay⟩
    · exact ⟨_, List.mem_cons_of_mem _ (List.mem_singleton.2 rfl), move (.dropping hold adj (some 0)) pan rfl⟩
    · exact ⟨_, List.mem_cons_self .., move (.dropping hold adj (some (n + 1))) pan rfl⟩
  | dropYield hold store =>
    rcases store with _ | _ | _ | n
    · exact ⟨_, List.mem_cons_self .., stay⟩
    · exact ⟨_, List.mem_cons_self .., stay⟩
    · exact ⟨_, List.mem_cons_of_mem _ (List.mem_singleton.2 rfl), move (.dropYield hold (some 0)) pan rfl⟩
    · exact ⟨_, List.mem_cons_self .., move (.dropYield hold (some (n + 1))) pan rfl⟩
  | misRead =>
    exact ⟨_, List.mem_cons_of_mem _ (List.mem_singleton.2 rfl), move .idle true rfl⟩
  | _ => exact ⟨_, List.mem_cons_self .., stay⟩

theorem sim_releaseWrite {i : Bool} {v u : Nat} {tx ty : Int} {x : Node} {inbox outbox : List Msg} {s : Side}
    (h : SRel i v u tx ty x inbox outbox s) (pan' : Bool) :
    ∃ s' ∈ s :: aReleaseWrite s, SRel i v u tx ty { (releaseWrite x).1 with panics := pan' } inbox
      (outbox ++ (releaseWrite x).2) s' := by
  obtain ⟨st, val, pan⟩ := x
  obtain ⟨ast, fx, fy, bt, ain, aout⟩ := s
  obtain rfl : absSt st = ast := h.st
  have stay := srel_stay h pan'
  cases st with
  | writing =>
    exact ⟨_, List.mem_cons_of_mem _ (List.mem_singleton.2 rfl),
      srel_move h (.dropping .write false none) pan' [.releasedWrite val] [.releasedWrite fx] (by intro t e; cases e)
        ⟨h.fx, trivial⟩⟩
  | misWrite n =>
    exact ⟨_, List.mem_cons_of_mem _ (List.mem_singleton.2 rfl),
      srel_move h (.dropping .read false (some n)) pan' [.releasedRead] [.releasedRead] (by intro t e; cases e) ⟨trivial, trivial⟩⟩
  | _ => exact ⟨_, List.mem_cons_self .., stay⟩

theorem lrel_release {v : Nat} {t : Int} {val : Nat} {fx : Bool} (h : fx = true → val = v) (k : Kind) :
    LRel v t [releaseMsg k val] [aRelease k fx] := by
  cases k
  · exact ⟨trivial, trivial⟩
  · exact ⟨h, trivial⟩

theorem absSt_granted (w h : Kind) : absSt (granted w h) = aGranted w h := by cases w <;> cases h <;> rfl

theorem absSt_leftIn (o : Option Nat) : absSt (leftIn o) = aLeftIn (o.map nz) := by
  rcases o with _ | _ | n <;> rfl

theorem absSt_afterYield (s : St) : absSt (afterYield s) = aAfterYield (absSt s) := by
  cases s with
  | lent h n => cases n <;> rfl
  | dropYield h o => exact absSt_leftIn o
  | _ => rfl

theorem time_granted (w h : Kind) : (granted w h).time = none := by cases w <;> cases h <;> rfl

theorem time_leftIn (o : Option Nat) : (leftIn o).time = none := by rcases o with _ | _ | n <;> rfl

theorem time_afterYield (s : St) (t : Int) : (afterYield s).time = some t → s.time = some t := by
  cases s with
  | lent h n => cases n <;> exact fun e => by cases e
  | dropYield h o => exact fun e => by rw [afterYield, time_leftIn] at e; cases e
  | losing w h t' => exact fun e => e
  | _ => exact fun e => e

theorem sim_recv {i : Bool} {v u : Nat} {tx ty : Int} {x : Node} {m : Msg} {rest outbox : List Msg} {s : Side} {am : AMsg}
    (h : SRel i v u tx ty x rest outbox s) (hm : MRel v ty m am) (r : Node × List Msg) (hr : recv i x m = some r) :
    ∃ s' ∈ aRecv s am, SRel i v u tx ty r.1 rest (outbox ++ r.2) s' := by
  obtain ⟨st, val, pan⟩ := x
  obtain ⟨ast, fx, fy, bt, ain, aout⟩ := s
  obtain rfl : absSt st = ast := h.st
  have stay := srel_stay h pan
  -- `yield_lock`
  have yielding : ∀ hold,
      ∃ s' ∈ (match am, hold with
        | .releasedWrite f, .write => [({ st := aAfterYield (absSt st), fx := f, fy := fy, bit := bt, inbox := ain, outbox := aout ++ [AMsg.releasedVerified] } : Side)]
        | .releasedRead, .read => [{ st := aAfterYield (absSt st), fx := fx, fy := fy, bit := bt, inbox := ain, outbox := aout ++ [AMsg.releasedVerified] }]
        | _, _ => [⟨absSt st, fx, fy, bt, ain, aout⟩]),
      SRel i v u tx ty (match recvYield hold val m with
        | some v => ((⟨afterYield st, v, pan⟩ : Node), [Msg.releasedVerified])
        | none => (⟨st, val, pan⟩, [])).1 rest (outbox ++ (match recvYield hold val m with
        | some v => ((⟨afterYield st, v, pan⟩ : Node), [Msg.releasedVerified])
        | none => (⟨st, val, pan⟩, [])).2) s' := fun hold => by
    have hy := srel_move h (afterYield st) pan [.releasedVerified] [.releasedVerified] (time_afterYield st) ⟨trivial, trivial⟩
    rw [absSt_afterYield] at hy
    cases m <;> cases am <;> try exact hm.elim
    all_goals cases hold <;> simp only [recvYield]
    all_goals
      first
      | exact ⟨_, List.mem_singleton.2 rfl, stay⟩
      | exact ⟨_, List.mem_singleton.2 rfl, hy⟩
      | exact ⟨_, List.mem_singleton.2 rfl, ⟨hy.st, hy.time, hm, hy.fy, hy.bit, hy.inb, hy.out⟩⟩
  cases st with
  | idle =>
    cases hr
    cases m <;> cases am <;> try exact hm.elim
    case tryAcquire.tryAcquire t k k' c =>
      obtain ⟨rfl, _⟩ := hm
      exact ⟨_, List.mem_singleton.2 rfl, srel_move h (.lent k 0) pan _ _ (by intro t e; cases e) (lrel_release h.fx k)⟩
    all_goals exact ⟨_, List.mem_singleton.2 rfl, stay⟩
  | active w hold t =>
    cases hr
    have grant := fun ms ams (hl : LRel v tx ms ams) => srel_move h (granted w hold) pan ms ams
      (fun t e => (by rw [time_granted] at e; cases e)) hl
    simp only [absSt_granted] at grant
    cases m <;> cases am <;> try exact hm.elim
    case releasedWrite.releasedWrite =>
      have g := grant [.releasedVerified, .lockAcquired] [.releasedVerified, .lockAcquired] ⟨trivial, trivial, trivial⟩
      exact ⟨_, List.mem_singleton.2 rfl, ⟨g.st, g.time, hm, g.fy, g.bit, g.inb, g.out⟩⟩
    case releasedRead.releasedRead =>
      exact ⟨_, List.mem_singleton.2 rfl, grant [.releasedVerified, .lockAcquired] [.releasedVerified, .lockAcquired]
        ⟨trivial, trivial, trivial⟩⟩
    case tryAcquire.tryAcquire t' k k' c =>
      obtain ⟨rfl, hc⟩ := hm
      have ht : t = tx := h.time t rfl
      subst ht
      have both := grant [.releasedRead] [.releasedRead] ⟨trivial, trivial⟩
      have win := grant [.lockAcquired] [.lockAcquired] ⟨trivial, trivial⟩
      have lose := srel_move h (.losing w k t) pan _ _ (fun t e => e) (lrel_release h.fx k)
      have hb : c = true → bt = wins i t t' := fun e => by rw [hc e]; exact h.bit
      by_cases hk : k = .read ∧ hold = .read
      · obtain ⟨rfl, rfl⟩ := hk
        exact ⟨_, List.mem_singleton.2 rfl, by simpa [recvActive] using both⟩
      · simp only [recvActive, if_neg hk]
        have hrw : aRecv ⟨absSt (.active w hold t), fx, fy, bt, ain, aout⟩ (.tryAcquire k c) =
            if c then (if bt then [⟨aGranted w hold, fx, fy, bt, ain, aout ++ [.lockAcquired]⟩]
              else [⟨.losing w k, fx, fy, bt, ain, aout ++ [aRelease k fx]⟩])
            else [⟨aGranted w hold, fx, fy, bt, ain, aout ++ [.lockAcquired]⟩, ⟨.losing w k, fx, fy, bt, ain, aout ++ [aRelease k fx]⟩] := by
          cases k <;> cases hold <;> first | rfl | exact absurd ⟨rfl, rfl⟩ hk
        rw [hrw]
        cases hw : wins i t t' <;> cases c <;> cases bt <;> simp_all
        all_goals first | exact win | exact lose | exact Or.inl win | exact Or.inr lose
    all_goals exact ⟨_, List.mem_singleton.2 rfl, stay⟩
  | losing w hold t => cases hr; exact yielding hold
  | lent hold n => cases hr; exact yielding hold
  | dropYield hold o => cases hr; exact yielding hold
  | dropping hold adj store =>
    cases hr
    cases m <;> cases am <;> try exact hm.elim
    case releasedRead.releasedRead =>
      cases hold
      · exact ⟨_, List.mem_singleton.2 rfl, srel_move h (.dropping .read adj store) pan [.releasedVerified] [.releasedVerified]
          (fun t e => e) ⟨trivial, trivial⟩⟩
      · exact ⟨_, List.mem_singleton.2 rfl, srel_move h (.dropping .write adj store) pan [] [] (fun t e => e) trivial⟩
    case releasedVerified.releasedVerified =>
      cases adj
      · have g := srel_go h (leftIn store) pan (time_leftIn store)
        rw [absSt_leftIn] at g
        exact ⟨_, List.mem_singleton.2 rfl, g⟩
      · exact ⟨_, List.mem_singleton.2 rfl, srel_move h (.dropYield hold store) pan _ _ (by intro t e; cases e)
          (lrel_release h.fx hold)⟩
    case tryAcquire.tryAcquire t k k' c =>
      exact ⟨_, List.mem_singleton.2 rfl, srel_go h (.dropping hold true store) pan rfl⟩
    all_goals exact ⟨_, List.mem_singleton.2 rfl, stay⟩
  | _ => cases hr

theorem sim_act {i : Bool} {v u : Nat} {tx ty : Int} {x : Node} {inbox outbox : List Msg} {s : Side}
    (h : SRel i v u tx ty x inbox outbox s) (o : Act) :
    ∃ s' ∈ s :: aSteps s, SRel i (left x v o) u (asked x tx o) ty (act i x inbox o).1 (act i x inbox o).2.1
      (outbox ++ (act i x inbox o).2.2) s' := by
  have lift : ∀ {l : List Side} {s' : Side}, (∀ z ∈ l, z ∈ aSteps s) → s' ∈ s :: l → s' ∈ s :: aSteps s := fun hl hs => by
    rcases List.mem_cons.1 hs with rfl | hs
    · exact List.mem_cons_self ..
    · exact List.mem_cons_of_mem _ (hl _ hs)
  cases o with
  | request k t =>
    obtain ⟨s', hs, hr⟩ := sim_request h k t
    refine ⟨s', lift (fun z hz => ?_) hs, hr⟩
    cases k <;> simp [aSteps, hz]
  | release k =>
    cases k with
    | read =>
      obtain ⟨s', hs, hr⟩ := sim_releaseRead h
      exact ⟨s', lift (fun z hz => by simp [aSteps, hz]) hs, hr⟩
    | write =>
      obtain ⟨s', hs, hr⟩ := sim_releaseWrite h (releaseWrite x).1.panics
      exact ⟨s', lift (fun z hz => by simp [aSteps, hz]) hs, hr⟩
  | write w =>
    obtain ⟨st, val, pan⟩ := x
    obtain ⟨ast, fx, fy, bt, ain, aout⟩ := s
    obtain rfl : absSt st = ast := h.st
    have stay := srel_stay h pan
    cases st with
    | writing =>
      refine ⟨⟨.writing, true, false, bt, ain.map oldValue, aout.map oldValue⟩, lift (l := aWrite ⟨absSt .writing, fx, fy, bt, ain, aout⟩) (fun z hz => by simp [aSteps, hz])
        (List.mem_cons_of_mem _ (List.mem_singleton.2 rfl)), ?_⟩
      exact ⟨rfl, fun t e => (by cases e), fun _ => rfl, fun e => (by cases e), h.bit, lrel_oldValue h.inb,
        by simpa [act, asked] using lrel_oldValue h.out⟩
    | misWrite n =>
      obtain ⟨s', hs, hr⟩ := sim_releaseWrite h true
      exact ⟨s', lift (fun z hz => by simp [aSteps, hz]) hs, hr⟩
    | _ => exact ⟨_, List.mem_cons_self .., stay⟩
  | recv =>
    cases inbox with
    | nil => exact ⟨s, List.mem_cons_self .., srel_stay h x.panics⟩
    | cons m rest =>
      cases hr : recv i x m with
      | none =>
        refine ⟨s, List.mem_cons_self .., ?_⟩
        simp only [act, hr, left, asked]
        exact srel_stay h x.panics
      | some r =>
        simp only [act, hr, left, asked]
        obtain ⟨ast, fx, fy, bt, ain, aout⟩ := s
        have hi := h.inb
        cases ain with
        | nil => exact hi.elim
        | cons am arest =>
          obtain ⟨s', hs, hr'⟩ := sim_recv (s := ⟨ast, fx, fy, bt, arest, aout⟩)
            ⟨h.st, h.time, h.fx, h.fy, h.bit, hi.2, h.out⟩ hi.1 r hr
          exact ⟨s', List.mem_cons_of_mem _ (by simp [aSteps, aInbox, hs]), hr'⟩

/-- A state and its shape. -/
structure Rel (s : Sys) (v : Nat) (ta tb : Int) (z : Shape) : Prop where
  sa : SRel true v s.b.val ta tb s.a s.toA s.toB z.sideA
  sb : SRel false v s.a.val tb ta s.b s.toB s.toA z.sideB

theorem rel_withA {s : Sys} {v v' : Nat} {ta ta' tb : Int} {z : Shape} {x : Node} {inbox outbox : List Msg} {q : Side}
    (h : Rel s v ta tb z) (hq : SRel true v' s.b.val ta' tb x inbox outbox q) :
    Rel ⟨x, s.b, inbox, outbox⟩ v' ta' tb (z.withA q) :=
  ⟨hq, ⟨h.sb.st, h.sb.time, hq.fy, hq.fx, by
    show (!q.bit) = _
    rw [hq.bit, ← wins_swap]; rfl, hq.out, hq.inb⟩⟩

theorem rel_withB {s : Sys} {v v' : Nat} {ta tb tb' : Int} {z : Shape} {x : Node} {inbox outbox : List Msg} {q : Side}
    (h : Rel s v ta tb z) (hq : SRel false v' s.a.val tb' ta x inbox outbox q) :
    Rel ⟨s.a, x, outbox, inbox⟩ v' ta tb' (z.withB q) :=
  ⟨⟨h.sa.st, h.sa.time, hq.fy, hq.fx, by
    show (!q.bit) = _
    rw [hq.bit, ← wins_swap]; rfl, hq.out, hq.inb⟩, by
    have e : (z.withB q).sideB = q := by
      cases q; simp [Shape.withB, Shape.sideB]
    rw [e]; exact hq⟩

theorem withA_self (z : Shape) : z.withA z.sideA = z := rfl
theorem withB_self (z : Shape) : z.withB z.sideB = z := by cases z; simp [Shape.withB, Shape.sideB]

/-- The value most recently written after an action. -/
def leftBy (s : Sys) (v : Nat) : Op → Nat
  | .a o => left s.a v o
  | .b o => left s.b v o

theorem sim_step {s : Sys} {v : Nat} {ta tb : Int} {z : Shape} (h : Rel s v ta tb z) (op : Op) :
    ∃ ta' tb' z', Rel (step s op) (leftBy s v op) ta' tb' z' ∧
      (z' = z ∨ z' ∈ (aSteps z.sideA).map z.withA ++ (aSteps z.sideB).map z.withB) := by
  cases op with
  | a o =>
    obtain ⟨q, hq, hr⟩ := sim_act h.sa o
    refine ⟨_, _, _, rel_withA h hr, ?_⟩
    rcases List.mem_cons.1 hq with rfl | hq
    · exact Or.inl (withA_self z)
    · exact Or.inr (List.mem_append_left _ (List.mem_map.2 ⟨q, hq, rfl⟩))
  | b o =>
    obtain ⟨q, hq, hr⟩ := sim_act h.sb o
    refine ⟨_, _, _, rel_withB h hr, ?_⟩
    rcases List.mem_cons.1 hq with rfl | hq
    · exact Or.inl (withB_self z)
    · exact Or.inr (List.mem_append_right _ (List.mem_map.2 ⟨q, hq, rfl⟩))

/-- A closed set of shapes describes all runs. -/
theorem sim_run {C : Shape → Prop} {ok : Shape → Bool} {P : Sys → Prop}
    (hok : ∀ s v ta tb z, Rel s v ta tb z → P s → ok z = true)
    (hC : ∀ z, C z → ∀ y ∈ shapeSteps ok z, C y) (ops : List Op) {s : Sys} {v : Nat} {ta tb : Int} {z : Shape}
    (h : Rel s v ta tb z) (hz : C z) (hp : ∀ pre post, ops = pre ++ post → P (pre.foldl step s)) :
    ∃ ta tb z, Rel (ops.foldl step s) (lastLeft s v ops) ta tb z ∧ C z := by
  induction ops generalizing s v ta tb z with
  | nil => exact ⟨ta, tb, z, h, hz⟩
  | cons op ops ih =>
    obtain ⟨ta', tb', z', hr, hz'⟩ := sim_step h op
    have hP : P (step s op) := hp [op] ops rfl
    have hc : C z' := by
      rcases hz' with rfl | hz'
      · exact hz
      · exact hC z hz z' (List.mem_filter.2 ⟨hz', hok _ _ _ _ _ hr hP⟩)
    have hp' : ∀ pre post, ops = pre ++ post → P (pre.foldl step (step s op)) := fun pre post e =>
      hp (op :: pre) post (by rw [e]; rfl)
    have := ih hr hc hp'
    rcases op with o | o <;> cases o <;> exact this

theorem rel_init (v : Nat) : Rel (init v) v 0 0 (initShape true) :=
  ⟨⟨rfl, fun t e => (by cases e), fun _ => rfl, fun _ => rfl, rfl, trivial, trivial⟩,
   ⟨rfl, fun t e => (by cases e), fun _ => rfl, fun _ => rfl, rfl, trivial, trivial⟩⟩

/-! ### Guards and requests in shapes -/

theorem writer_abs (x : Node) : (absSt x.st).writer = x.writer := by
  obtain ⟨st, v, p⟩ := x; cases st <;> rfl

theorem nz_pos (n : Nat) : nz n = true ↔ 0 < n := by cases n <;> simp [nz]

theorem reader_abs (x : Node) : (absSt x.st).reader = true ↔ 0 < x.readers := by
  obtain ⟨st, v, p⟩ := x
  cases st with
  | dropping h j o => cases o <;> simp [absSt, ASt.reader, Node.readers, nz_pos]
  | dropYield h o => cases o <;> simp [absSt, ASt.reader, Node.readers, nz_pos]
  | _ => simp [absSt, ASt.reader, Node.readers, nz_pos]

theorem holds_abs (x : Node) : (absSt x.st).holds = true ↔ x.holds := by
  simp [ASt.holds, Node.holds, writer_abs, reader_abs]

theorem wants_abs (x : Node) : (absSt x.st).wants = x.wants := by
  obtain ⟨st, v, p⟩ := x; cases st <;> rfl

theorem stA {s : Sys} {v : Nat} {ta tb : Int} {z : Shape} (h : Rel s v ta tb z) : z.a = absSt s.a.st := h.sa.st.symm
theorem stB {s : Sys} {v : Nat} {ta tb : Int} {z : Shape} (h : Rel s v ta tb z) : z.b = absSt s.b.st := h.sb.st.symm

end Verif.NetRwLock

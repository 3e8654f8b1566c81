import Verif.Sessions.Orderly
/-!
Executable checks of concrete executions.
-/
namespace Verif.Sessions
open AMap

def Mgr.allowedB (m : Mgr) : Ev → Bool
  | .accept addr => m.sess.all fun s => s.over || decide (s.addr ≠ addr)
  | .wake sid i =>
    match m.sess[sid]? with
    | some s =>
      match s.pend[i]? with
      | some (.wait _ on tok) =>
        match m.sess[on]? with
        | some x => decide (x.listener ≠ some tok)
        | none => true
      | _ => true
    | none => true
  | .finish sid panic =>
    match m.sess[sid]? with
    | some s => !s.panicked || panic
    | none => true
  | _ => true

theorem Mgr.allowed_of {m : Mgr} {ev : Ev} (h : m.allowedB ev = true) : m.Allowed ev := by
  cases ev with
  | accept addr =>
    intro s hs ho
    have h := List.all_eq_true.mp h s hs
    rw [ho] at h
    exact of_decide_eq_true h
  | wake sid i =>
    intro s c on tok hs hp x hx
    simp only [Mgr.allowedB] at h
    rw [hs] at h
    dsimp only at h
    rw [hp] at h
    dsimp only at h
    rw [hx] at h
    exact .inl (of_decide_eq_true h)
  | finish sid panic =>
    intro s hs hp
    simp only [Mgr.allowedB] at h
    rw [hs] at h
    dsimp only at h
    rw [hp] at h
    exact h
  | _ => trivial

def Mgr.calmB (m : Mgr) : Ev → Bool
  | .syn _ c k =>
    match m.find c k with
    | some i =>
      match m.sess[i]? with
      | some x => decide (x.st ≠ .disconnecting)
      | none => true
    | none => true
  | .goOn sid i _ =>
    match m.sess[sid]? with
    | some s =>
      match s.pend[i]? with
      | some (.syn _ (some t)) => decide (m.now < t + ttl)
      | _ => true
    | none => true
  | _ => true

theorem Mgr.calm_of {m : Mgr} {ev : Ev} (h : m.calmB ev = true) : m.Calm ev := by
  cases ev with
  | syn sid c k =>
    intro i x hi hx
    simp only [Mgr.calmB] at h
    rw [hi] at h
    dsimp only at h
    rw [hx] at h
    exact of_decide_eq_true h
  | goOn sid i r =>
    intro s c t hs hp
    simp only [Mgr.calmB] at h
    rw [hs] at h
    dsimp only at h
    rw [hp] at h
    exact of_decide_eq_true h
  | _ => trivial

def Mgr.cleanB (m : Mgr) : Ev → Bool
  | .failure sid =>
    match m.sess[sid]? with
    | some s => !s.conn
    | none => true
  | .finish sid panic =>
    match m.sess[sid]? with
    | some s => !s.conn || !panic
    | none => true
  | _ => true

theorem Mgr.clean_of {m : Mgr} {ev : Ev} (h : m.cleanB ev = true) : m.Clean ev := by
  cases ev with
  | failure sid =>
    intro s hs
    simp only [Mgr.cleanB] at h
    rw [hs] at h
    simpa using h
  | finish sid panic =>
    intro s hs hc
    simp only [Mgr.cleanB] at h
    rw [hs] at h
    dsimp only at h
    rw [hc] at h
    simpa using h
  | _ => trivial

def Pend.waits (c : Cid) : Pend → Bool
  | .wait c' _ _ => decide (c' = c)
  | .syn c' none => decide (c' = c)
  | _ => false

def Mgr.orderlyB (m : Mgr) (c : Cid) : Ev → Bool
  | .syn _ c' k => !decide (c' = c) || (m.find c k).isSome || m.sess.all fun s => s.pend.all fun p => !p.waits c
  | .timeout _ _ => false
  | .goOn sid i r => m.calmB (.goOn sid i r)
  | .failure sid => m.cleanB (.failure sid)
  | .finish sid panic => m.cleanB (.finish sid panic)
  | _ => true

theorem Mgr.orderly_of {m : Mgr} {c : Cid} {ev : Ev} (h : m.orderlyB c ev = true) : m.Orderly c ev := by
  cases ev with
  | syn sid c' k =>
    rintro rfl hf s hs p hp
    simp only [Mgr.orderlyB] at h
    simp only [hf, decide_true, Bool.not_true, Option.isSome_none, Bool.or_false, Bool.false_or, List.all_eq_true] at h
    have := h s hs p hp
    constructor
    · rintro on tok rfl
      simp [Pend.waits] at this
    · rintro rfl
      simp [Pend.waits] at this
  | timeout sid i => cases h
  | goOn sid i r =>
    intro s t hs hp
    exact Mgr.calm_of (m := m) (ev := .goOn sid i r) h s c t hs hp
  | failure sid =>
    intro s hs _
    exact Mgr.clean_of (m := m) (ev := .failure sid) h s hs
  | finish sid panic =>
    intro s hs _
    exact Mgr.clean_of (m := m) (ev := .finish sid panic) h s hs
  | _ => trivial

def Mgr.check (p : Mgr → Ev → Bool) : Mgr → List Ev → Bool
  | _, [] => true
  | m, ev :: evs => m.allowedB ev && p m ev && (m.step ev).check p evs

theorem RunWith.extend {P : Mgr → Ev → Prop} {p : Mgr → Ev → Bool} (hp : ∀ m ev, p m ev = true → P m ev) {evs : List Ev} {m : Mgr}
    (h : RunWith P evs m) (evs' : List Ev) (hc : m.check p evs' = true) : RunWith P (evs ++ evs') (m.steps evs') := by
  induction evs' generalizing evs m with
  | nil => simpa [Mgr.steps] using h
  | cons ev evs' ih =>
    unfold Mgr.check at hc
    simp only [Bool.and_eq_true] at hc
    have := ih (h.step (Mgr.allowed_of hc.1.1) (hp _ _ hc.1.2)) hc.2
    rw [List.append_assoc] at this
    exact this

theorem runWith_of {P : Mgr → Ev → Prop} {p : Mgr → Ev → Bool} (hp : ∀ m ev, p m ev = true → P m ev) {evs : List Ev}
    (hc : Mgr.init.check p evs = true) : RunWith P evs (Mgr.init.steps evs) := by
  have := RunWith.extend hp (.init) evs hc
  exact this

theorem run_of {evs : List Ev} (hc : Mgr.init.check (fun _ _ => true) evs = true) : Run evs (Mgr.init.steps evs) :=
  (runWith_of (P := fun _ _ => True) (fun _ _ _ => trivial) hc).run

/-- A login. -/
def loginEvs (sid addr : Nat) (c : Cid) : List Ev :=
  [.accept addr, .syn sid c 0, .goOn sid 0 .valid, .connect sid, .connected sid 0 true]

/-- An account is left and used again, while another one is in use. -/
def calmEvs : List Ev :=
  loginEvs 0 1 7 ++ loginEvs 1 2 8 ++ [.disc 0, .finish 0 false] ++ loginEvs 2 1 7

/-- The new login has to wait for the end of the old session; a third one is refused. -/
def waitEvs : List Ev :=
  loginEvs 0 1 7 ++ loginEvs 1 2 8 ++ [.disc 0, .accept 3, .syn 2 7 0, .accept 4, .syn 3 7 0, .finish 0 false, .wake 2 0,
    .goOn 2 0 .valid, .connect 2, .connected 2 0 true]

/-- The same, but a third login comes when the old session is gone and the second one has not gone on yet. -/
def raceEvs : List Ev :=
  loginEvs 0 1 7 ++ [.disc 0, .accept 2, .syn 1 7 0, .finish 0 false, .wake 1 0, .accept 3, .syn 2 7 0,
    .goOn 1 0 .valid, .goOn 2 0 .valid, .connect 1, .connect 2, .connected 1 0 true, .connected 2 0 true]

/-- A client says that its login failed, when the server has accepted it. -/
def failEvs : List Ev := loginEvs 0 1 7 ++ [.failure 0, .finish 0 false]

/-- Then somebody sends one SYN for the account and leaves. -/
def lockEvs : List Ev := failEvs ++ [.accept 2, .syn 1 7 0, .finish 1 false]

/-- A connection is lost between the SYN and the answer. -/
def leakEvs : List Ev := [.accept 1, .syn 0 7 0, .goOn 0 0 .error, .finish 0 false, .accept 2]

end Verif.Sessions

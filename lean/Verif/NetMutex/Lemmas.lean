import Verif.NetMutex.Spec
import Mathlib.Data.List.Induction

namespace Verif.NetMutex

/-- Reachable configurations up to exchange of the endpoints: endpoint `x` (initiator iff `w`), endpoint `y`, their inboxes;
`v` is the value most recently left by a holder; `k`: both endpoints have requested the lock at the same time before. -/
inductive Half (k w : Bool) (v : Nat) : Node → Node → List Msg → List Msg → Prop
  | c1 (tx : Int) (ty : Int) (hk : k = true) :
     Half k w v ⟨.active tx, v, true⟩ ⟨.active ty, v, true⟩ [.tryAcquire ty] [.tryAcquire tx]
  | c2 (tx : Int) :
     Half k w v ⟨.active tx, v, true⟩ ⟨.dropping false, v, true⟩ [] [.lockAcquired, .releasedVerified, .tryAcquire tx]
  | c3 (tx : Int) :
     Half k w v ⟨.active tx, v, true⟩ ⟨.dropping false, v, true⟩ [] [.releasedVerified, .tryAcquire tx]
  | c4 (tx : Int) (u : Nat) (hk : k = true) :
     Half k w v ⟨.active tx, u, true⟩ ⟨.dropping false, v, true⟩ [] [.tryAcquire tx]
  | c5 (tx : Int) (u : Nat) :
     Half k w v ⟨.active tx, u, true⟩ ⟨.dropping false, v, true⟩ [.released v true] [.tryAcquire tx]
  | c6 (tx : Int) (t : Int) (u : Nat) (h : wins w tx t = false) (hk : k = true) :
     Half k w v ⟨.active tx, u, true⟩ ⟨.dropping false, v, true⟩ [.tryAcquire t, .lockAcquired, .released v true] []
  | c7 (tx : Int) (u : Nat) (hk : k = true) :
     Half k w v ⟨.active tx, u, true⟩ ⟨.dropping true, v, true⟩ [] []
  | c8 (tx : Int) (u : Nat) :
     Half k w v ⟨.active tx, u, true⟩ ⟨.dropping true, v, true⟩ [.released v true] []
  | c9 (tx : Int) (u : Nat) :
     Half k w v ⟨.active tx, u, true⟩ ⟨.guard, v, true⟩ [] [.tryAcquire tx]
  | c10 (tx : Int) (t : Int) (u : Nat) (h : wins w tx t = false) (hk : k = true) :
     Half k w v ⟨.active tx, u, true⟩ ⟨.guard, v, true⟩ [.tryAcquire t, .lockAcquired] []
  | c11 (tx : Int) :
     Half k w v ⟨.active tx, v, true⟩ ⟨.idle, v, true⟩ [] [.tryAcquire tx]
  | c12 (tx : Int) :
     Half k w v ⟨.active tx, v, true⟩ ⟨.yielding .bg, v, true⟩ [.released v false] []
  | c13 (tx : Int) (t : Int) (h : wins w tx t = true) (hk : k = true) :
     Half k w v ⟨.active tx, v, true⟩ ⟨.yielding .guard, v, true⟩ [.tryAcquire t] []
  | c14 (u : Nat) (hk : k = true) :
     Half k w v ⟨.dropping false, v, true⟩ ⟨.dropping false, u, true⟩ [] [.lockAcquired, .releasedVerified, .released v true]
  | c15 (u : Nat) (hk : k = true) :
     Half k w v ⟨.dropping false, v, true⟩ ⟨.dropping false, u, true⟩ [] [.releasedVerified, .released v true]
  | c16 (t : Int) (u : Nat) :
     Half k w v ⟨.dropping false, v, true⟩ ⟨.dropping false, u, true⟩ [] [.tryAcquire t, .lockAcquired, .releasedVerified, .released v true]
  | c17 (u : Nat) :
     Half k w v ⟨.dropping false, v, true⟩ ⟨.dropping true, u, true⟩ [] [.lockAcquired, .releasedVerified, .released v true]
  | c18 (u : Nat) :
     Half k w v ⟨.dropping false, v, true⟩ ⟨.dropping true, u, true⟩ [] [.releasedVerified, .released v true]
  | c19 (u : Nat) (hk : k = true) :
     Half k w v ⟨.dropping false, u, true⟩ ⟨.guard, v, true⟩ [.lockAcquired, .releasedVerified] []
  | c20 (u : Nat) (hk : k = true) :
     Half k w v ⟨.dropping false, u, true⟩ ⟨.guard, v, true⟩ [.releasedVerified] []
  | c21 (t : Int) (u : Nat) :
     Half k w v ⟨.dropping false, u, true⟩ ⟨.guard, v, true⟩ [.tryAcquire t, .lockAcquired, .releasedVerified] []
  | c22 (u : Nat) (hk : k = true) :
     Half k w v ⟨.dropping false, v, true⟩ ⟨.idle, u, true⟩ [] []
  | c23 (u : Nat) (hk : k = true) :
     Half k w v ⟨.dropping false, v, true⟩ ⟨.idle, u, true⟩ [] [.released v true]
  | c24 :
     Half k w v ⟨.dropping false, v, true⟩ ⟨.idle, v, true⟩ [.lockAcquired, .releasedVerified] []
  | c25 :
     Half k w v ⟨.dropping false, v, true⟩ ⟨.idle, v, true⟩ [.releasedVerified] []
  | c26 (u : Nat) :
     Half k w v ⟨.dropping false, v, true⟩ ⟨.yielding .bg, u, true⟩ [] [.lockAcquired, .releasedVerified, .released v true]
  | c27 (u : Nat) :
     Half k w v ⟨.dropping false, v, true⟩ ⟨.yielding .bg, u, true⟩ [] [.releasedVerified, .released v true]
  | c28 (u : Nat) :
     Half k w v ⟨.dropping false, v, true⟩ ⟨.yielding .bg, u, true⟩ [] [.released v true]
  | c29 (u : Nat) (hk : k = true) :
     Half k w v ⟨.dropping false, v, true⟩ ⟨.yielding .guard, u, true⟩ [] [.lockAcquired, .released v true]
  | c30 (u : Nat) (hk : k = true) :
     Half k w v ⟨.dropping false, v, true⟩ ⟨.yielding .guard, u, true⟩ [] [.released v true]
  | c31 (u : Nat) :
     Half k w v ⟨.dropping false, v, true⟩ ⟨.yielding .idle, u, true⟩ [] [.released v true]
  | c32 (u : Nat) :
     Half k w v ⟨.dropping true, u, true⟩ ⟨.guard, v, true⟩ [.lockAcquired, .releasedVerified] []
  | c33 (u : Nat) :
     Half k w v ⟨.dropping true, u, true⟩ ⟨.guard, v, true⟩ [.releasedVerified] []
  | c34 (u : Nat) (hk : k = true) :
     Half k w v ⟨.guard, v, true⟩ ⟨.idle, u, true⟩ [] []
  | c35 (u : Nat) :
     Half k w v ⟨.guard, v, true⟩ ⟨.yielding .bg, u, true⟩ [] []
  | c36 (u : Nat) :
     Half k w v ⟨.guard, v, true⟩ ⟨.yielding .bg, u, true⟩ [] [.lockAcquired, .releasedVerified]
  | c37 (u : Nat) :
     Half k w v ⟨.guard, v, true⟩ ⟨.yielding .bg, u, true⟩ [] [.releasedVerified]
  | c38 (u : Nat) (hk : k = true) :
     Half k w v ⟨.guard, v, true⟩ ⟨.yielding .guard, u, true⟩ [] []
  | c39 (u : Nat) (hk : k = true) :
     Half k w v ⟨.guard, v, true⟩ ⟨.yielding .guard, u, true⟩ [] [.lockAcquired]
  | c40 (u : Nat) :
     Half k w v ⟨.guard, v, true⟩ ⟨.yielding .idle, u, true⟩ [] []
  | c41 :
     Half k w v ⟨.idle, v, true⟩ ⟨.idle, v, true⟩ [] []

theorem wins_swap (w : Bool) (t t' : Int) : wins (!w) t' t = !wins w t t' := by
  unfold wins
  by_cases h : t = t'
  · subst h; simp
  · have h' : ¬ t' = t := fun e => h e.symm
    simp only [h, h', if_false]
    rw [Bool.eq_iff_iff]; simp; omega

def isActive : St → Bool
  | .active _ => true
  | _ => false

/-- The ghost value after an action of `x`. -/
def left (x : Node) (v : Nat) : Act → Nat
  | .write u => if x.st = .guard then u else v
  | _ => v

theorem half_x {k w : Bool} {v : Nat} {x y : Node} {ix iy : List Msg} (h : Half k w v x y ix iy) (o : Act) (k' : Bool)
    (hk : k = true → k' = true)
    (hc : isActive (act w x ix o).1.st = true → isActive y.st = true → k' = true) :
    Half k' w (left x v o) (act w x ix o).1 y (act w x ix o).2.1 (iy ++ (act w x ix o).2.2) ∨
    Half k' (!w) (left x v o) y (act w x ix o).1 (iy ++ (act w x ix o).2.2) (act w x ix o).2.1 := by
  cases o with
  | lock t =>
    cases h <;> simp only [act, left, isActive, List.nil_append, List.append_nil, List.cons_append, List.singleton_append] at hc ⊢ <;>
      first
        | exact Or.inl (by constructor <;> simp_all)
        | exact Or.inr (by constructor <;> simp_all)
  | write u =>
    cases h <;> simp only [act, left, isActive, List.nil_append, List.append_nil, List.cons_append, List.singleton_append, reduceCtorEq, if_false, if_true] at hc ⊢ <;>
      first
        | exact Or.inl (by constructor <;> simp_all)
        | exact Or.inr (by constructor <;> simp_all)
  | unlock =>
    cases h <;> simp only [act, left, isActive, List.nil_append, List.append_nil, List.cons_append, List.singleton_append] at hc ⊢ <;>
      first
        | exact Or.inl (by constructor <;> simp_all)
        | exact Or.inr (by constructor <;> simp_all)
  | recv =>
    cases h with
    | c1 tx ty hk1 =>
      simp only [act, left, recvActive]
      cases hw : wins w tx ty with
      | true =>
        exact Or.inr (Half.c10 _ _ _ (by rw [wins_swap, hw]; rfl) (hk hk1))
      | false =>
        exact Or.inr (Half.c13 _ _ (by rw [wins_swap, hw]; rfl) (hk hk1))
    | _ =>
      simp only [act, left, isActive, recvIdle, recvActive, recvYield, recvDrop, List.nil_append, List.append_nil, List.cons_append, List.singleton_append, if_true, *, Bool.false_eq_true, if_false] at hc ⊢
      first
        | exact Or.inl (by constructor <;> simp_all)
        | exact Or.inr (by constructor <;> simp_all)

theorem half_y {k w : Bool} {v : Nat} {x y : Node} {ix iy : List Msg} (h : Half k w v x y ix iy) (o : Act) (k' : Bool)
    (hk : k = true → k' = true)
    (hc : isActive (act (!w) y iy o).1.st = true → isActive x.st = true → k' = true) :
    Half k' w (left y v o) x (act (!w) y iy o).1 (ix ++ (act (!w) y iy o).2.2) (act (!w) y iy o).2.1 ∨
    Half k' (!w) (left y v o) (act (!w) y iy o).1 x (act (!w) y iy o).2.1 (ix ++ (act (!w) y iy o).2.2) := by
  cases o with
  | lock t =>
    cases h <;> simp only [act, left, isActive, List.nil_append, List.append_nil, List.cons_append, List.singleton_append] at hc ⊢ <;>
      first
        | exact Or.inl (by constructor <;> simp_all)
        | exact Or.inr (by constructor <;> simp_all)
  | write u =>
    cases h <;> simp only [act, left, isActive, List.nil_append, List.append_nil, List.cons_append, List.singleton_append, reduceCtorEq, if_false, if_true] at hc ⊢ <;>
      first
        | exact Or.inl (by constructor <;> simp_all)
        | exact Or.inr (by constructor <;> simp_all)
  | unlock =>
    cases h <;> simp only [act, left, isActive, List.nil_append, List.append_nil, List.cons_append, List.singleton_append] at hc ⊢ <;>
      first
        | exact Or.inl (by constructor <;> simp_all)
        | exact Or.inr (by constructor <;> simp_all)
  | recv =>
    cases h with
    | c1 tx ty hk1 =>
      simp only [act, left, recvActive]
      cases hw : wins (!w) ty tx with
      | true =>
        refine Or.inl (Half.c10 _ _ _ ?_ (hk hk1))
        rw [wins_swap] at hw; simpa using hw
      | false =>
        refine Or.inl (Half.c13 _ _ ?_ (hk hk1))
        rw [wins_swap] at hw; simpa using hw
    | _ =>
      simp only [act, left, isActive, recvIdle, recvActive, recvYield, recvDrop, List.nil_append, List.append_nil, List.cons_append, List.singleton_append, if_true, *, Bool.false_eq_true, if_false] at hc ⊢
      first
        | exact Or.inl (by constructor <;> simp_all)
        | exact Or.inr (by constructor <;> simp_all)

/-- Both endpoints are waiting for the lock. -/
def bothActive (s : Sys) : Bool := isActive s.a.st && isActive s.b.st

def Inv (k : Bool) (v : Nat) (s : Sys) : Prop :=
  Half k true v s.a s.b s.toA s.toB ∨ Half k false v s.b s.a s.toB s.toA

def leftBy (s : Sys) (v : Nat) : Op → Nat
  | .a o => left s.a v o
  | .b o => left s.b v o

theorem inv_step {k : Bool} {v : Nat} {s : Sys} (h : Inv k v s) (op : Op) (k' : Bool) (hk : k = true → k' = true)
    (hc : bothActive (step s op) = true → k' = true) : Inv k' (leftBy s v op) (step s op) := by
  unfold bothActive at hc
  cases op with
  | a o =>
    rcases h with h | h
    · exact half_x h o k' hk (fun h1 h2 => hc (by simp only [step, h1, h2, Bool.and_self]))
    · have := half_y h o k' hk (fun h1 h2 => hc (by
        simp only [step]; simp only [Bool.not_false] at h1; simp only [h1, h2, Bool.and_self]))
      exact this.symm
  | b o =>
    rcases h with h | h
    · exact half_y h o k' hk (fun h1 h2 => hc (by
        simp only [step]; simp only [Bool.not_true] at h1; simp only [h1, h2, Bool.and_self]))
    · have := half_x h o k' hk (fun h1 h2 => hc (by simp only [step, h1, h2, Bool.and_self]))
      exact this.symm

theorem inv_run {v : Nat} (ops : List Op) (s : Sys) (h : Inv true v s) :
    Inv true (lastLeft s v ops) (ops.foldl step s) := by
  induction ops generalizing s v with
  | nil => exact h
  | cons op ops ih =>
    have h1 := inv_step h op true (fun _ => rfl) (fun _ => rfl)
    rcases op with o | o <;> cases o <;> exact ih _ h1

theorem inv_init (k : Bool) (v : Nat) : Inv k v (init v) := Or.inl .c41

theorem after_snoc (v : Nat) (ops : List Op) (op : Op) : after v (ops ++ [op]) = step (after v ops) op := by
  unfold after; rw [List.foldl_append]; rfl

theorem inv_quiet (v : Nat) (ops : List Op)
    (h : ∀ pre post, ops = pre ++ post → bothActive (after v pre) = false) : ∃ u, Inv false u (after v ops) := by
  induction ops using List.reverseRecOn with
  | nil => exact ⟨v, inv_init _ _⟩
  | append_singleton ops op ih =>
    obtain ⟨u, hu⟩ := ih (fun pre post e => h pre (post ++ [op]) (by rw [e, List.append_assoc]))
    rw [after_snoc]
    refine ⟨_, inv_step hu op false (fun h => h) (fun hb => ?_)⟩
    have := h (ops ++ [op]) [] (by simp)
    rw [after_snoc, hb] at this; exact this.symm

end Verif.NetMutex

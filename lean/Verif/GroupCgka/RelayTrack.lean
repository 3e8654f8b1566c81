import Verif.GroupCgka.RelayInv
/-
What is still to come for a client, and its status.
-/
namespace Verif.GroupCgka

open Verif.TreeKem Verif.TreeMath

variable {M : Type} (P : Prims M)

/-- The history of the owner's commits: `W d` is the group in epoch `d`, `C d` the commit that led to it. -/
structure Hist (M : Type) where
  E : Nat
  W : Nat → World M
  C : Nat → Commit M

structure Hist.Ok (h : Hist M) : Prop where
  reach : ∀ d ≤ h.E, Reach P (h.W d)
  owner : ∀ d ≤ h.E, (h.W d 0).isSome
  epoch : ∀ d ≤ h.E, ∀ j g, h.W d j = some g → g.epoch = d
  next : ∀ d < h.E, ∀ j g, j ≠ 0 → h.W d j = some g → (h.W (d + 1) j).isSome →
    (TreeKem.processCommit P g (h.C (d + 1))).2 = .ok () ∧ h.W (d + 1) j = some (TreeKem.processCommit P g (h.C (d + 1))).1

def Hist.push (h : Hist M) (w : World M) (c : Commit M) : Hist M :=
  ⟨h.E + 1, fun d => if d = h.E + 1 then w else h.W d, fun d => if d = h.E + 1 then c else h.C d⟩

theorem push_ok {h : Hist M} (hh : h.Ok P) {w' : World M} {g g' : GroupState M} {cm : Commit M} {gone : Nat → Prop} (hP : Lawful P)
    (hg : h.W h.E 0 = some g) (hm : Moved P (h.W h.E) w' g g' cm gone) : (h.push w' cm).Ok P := by
  have hge := hh.epoch h.E le_rfl 0 g hg
  refine ⟨fun d hd => ?_, fun d hd => ?_, fun d hd j g1 hj => ?_, fun d hd j g1 hj0 hj hs => ?_⟩
  · unfold Hist.push at hd ⊢
    dsimp only at hd ⊢
    split
    · exact hm.reach
    · exact hh.reach d (by omega)
  · unfold Hist.push at hd ⊢
    dsimp only at hd ⊢
    split
    · rw [hm.owner]; rfl
    · exact hh.owner d (by omega)
  · unfold Hist.push at hd hj
    dsimp only at hd hj
    split at hj
    · rename_i e
      rw [(C24_agreement P hP hm.reach hj hm.owner).2.1, hm.epoch, hge, e]
    · exact hh.epoch d (by omega) j g1 hj
  · unfold Hist.push at hd hj hs ⊢
    dsimp only at hd hj hs ⊢
    rw [if_neg (by omega)] at hj
    by_cases e : d + 1 = h.E + 1
    · rw [if_pos e] at hs
      rw [if_pos e, if_pos e]
      have e' : d = h.E := by omega
      rw [e'] at hj
      refine hm.others j g1 hj0 (fun hgone => ?_) hj
      rw [hm.left j hgone] at hs
      cases hs
    · rw [if_neg e] at hs
      rw [if_neg e, if_neg e]
      exact hh.next d (by omega) j g1 hj0 hj hs

/-- The client at seat `q` in epoch `d` gets to epoch `f` with these packets. -/
inductive Track (h : Hist M) (q : Nat) : Nat → List (Down M) → Nat → Prop
  | nil (d : Nat) : Track h q d [] d
  | next {d f : Nat} {r : List (Down M)} : (h.W (d + 1) q).isSome → Track h q (d + 1) r f →
      Track h q d (.sig (.commit (d + 1) (some (h.C (d + 1)))) :: r) f
  | old {d f e : Nat} {cm : Option (Commit M)} {r : List (Down M)} : e ≤ d → Track h q d r f → Track h q d (.sig (.commit e cm) :: r) f

theorem Track.le {h : Hist M} {q d f : Nat} {r : List (Down M)} (t : Track h q d r f) : d ≤ f := by
  induction t with
  | nil d => exact le_rfl
  | next _ _ ih => omega
  | old _ _ ih => exact ih

theorem Track.push {h : Hist M} {q d f : Nat} {r : List (Down M)} (t : Track h q d r f) (hf : f ≤ h.E) (w : World M) (c : Commit M) :
    Track (h.push w c) q d r f := by
  induction t with
  | nil d => exact .nil d
  | @next d f r hs t ih =>
    have hd := t.le
    have e1 : (h.push w c).W (d + 1) = h.W (d + 1) := by unfold Hist.push; dsimp only; rw [if_neg (by omega)]
    have e2 : (h.push w c).C (d + 1) = h.C (d + 1) := by unfold Hist.push; dsimp only; rw [if_neg (by omega)]
    rw [← e2]
    exact .next (by rw [e1]; exact hs) (ih hf)
  | old he _ ih => exact .old he (ih hf)

theorem Track.snoc {h : Hist M} {q d f : Nat} {r : List (Down M)} (t : Track h q d r f) (hs : (h.W (f + 1) q).isSome) :
    Track h q d (r ++ [.sig (.commit (f + 1) (some (h.C (f + 1))))]) (f + 1) := by
  induction t with
  | nil d => exact .next hs (.nil _)
  | next h1 _ ih => exact .next h1 (ih hs)
  | old he _ ih => exact .old he (ih hs)

theorem Track.prefix {h : Hist M} {q : Nat} : ∀ {x z : List (Down M)} {d f : Nat}, Track h q d (x ++ z) f → ∃ f' ≤ f, Track h q d x f'
  | [], _, d, f, t => ⟨d, t.le, .nil d⟩
  | a :: x, z, d, f, t => by
    cases t with
    | next h1 t =>
      obtain ⟨f', h2, h3⟩ := Track.prefix t
      exact ⟨f', h2, .next h1 h3⟩
    | old h1 t =>
      obtain ⟨f', h2, h3⟩ := Track.prefix t
      exact ⟨f', h2, .old h1 h3⟩

/-- Commits up to epoch `E`. -/
def Plain (E : Nat) : Down M → Prop
  | .sig (.commit e _) => e ≤ E
  | _ => False

theorem track_old {h : Hist M} {q d : Nat} {r : List (Down M)} (hr : ∀ x ∈ r, Plain d x) : Track h q d r d := by
  induction r with
  | nil => exact .nil d
  | cons a r ih =>
    have ha := hr a (by simp)
    have ht := ih fun x hx => hr x (by simp [hx])
    cases a with
    | accepted => exact absurd ha id
    | sig s =>
      cases s with
      | commit e cm => exact .old ha ht
      | keyPackage _ _ => exact absurd ha id
      | welcome _ => exact absurd ha id
      | message _ => exact absurd ha id

def isCtl : Down M → Bool
  | .sig (.message _) => false
  | _ => true

/-- What of the owner's packets under way will get to `c`. -/
def cut (c : Nat) : List (Up M) → List (Down M)
  | [] => []
  | .kick k :: r => if k = c then [] else cut c r
  | .commit e cm :: r => .sig (.commit e (some cm)) :: cut c r
  | .message _ :: r => cut c r

/-- All that is to come for `c`, but for messages. -/
def fq (y : Sys M) (c : Nat) : List (Down M) := (y.down c).filter isCtl ++ if y.roster c then cut c y.up else []

/-- On the roster, and not about to be kicked. -/
def Active (y : Sys M) (c : Nat) : Prop := y.roster c = true ∧ Up.kick c ∉ y.up

theorem cut_append (c : Nat) : ∀ (u v : List (Up M)), (Up.kick c ∈ u → cut c (u ++ v) = cut c u) ∧ (Up.kick c ∉ u → cut c (u ++ v) = cut c u ++ cut c v)
  | [], v => ⟨by simp, by simp [cut]⟩
  | .kick k :: u, v => by
    obtain ⟨h1, h2⟩ := cut_append c u v
    by_cases e : k = c
    · subst e
      exact ⟨fun _ => by simp [cut], fun h => absurd (by simp) h⟩
    · refine ⟨fun h => ?_, fun h => ?_⟩
      · simp only [List.mem_cons, Up.kick.injEq] at h
        simp only [List.cons_append, cut, if_neg e]
        exact h1 (h.resolve_left (fun h => e h.symm))
      · simp only [List.mem_cons, not_or] at h
        simp only [List.cons_append, cut, if_neg e]
        exact h2 h.2
  | .commit e cm :: u, v => by
    obtain ⟨h1, h2⟩ := cut_append c u v
    simp only [List.mem_cons, reduceCtorEq, false_or, List.cons_append, cut, List.cons.injEq, true_and]
    exact ⟨h1, h2⟩
  | .message a :: u, v => by
    obtain ⟨h1, h2⟩ := cut_append c u v
    simp only [List.mem_cons, reduceCtorEq, false_or, List.cons_append, cut]
    exact ⟨h1, h2⟩

theorem cut_plain {c E : Nat} : ∀ {u : List (Up M)}, (∀ e cm, Up.commit e cm ∈ u → e ≤ E) → ∀ x ∈ cut c u, Plain E x
  | [], _, x, hx => by simp [cut] at hx
  | .kick k :: u, h, x, hx => by
    unfold cut at hx
    split at hx
    · simp at hx
    · exact cut_plain (fun e cm he => h e cm (by simp [he])) x hx
  | .commit e cm :: u, h, x, hx => by
    unfold cut at hx
    rcases List.mem_cons.1 hx with rfl | hx
    · exact h e cm (by simp)
    · exact cut_plain (fun e cm he => h e cm (by simp [he])) x hx
  | .message a :: u, h, x, hx => by
    unfold cut at hx
    exact cut_plain (fun e cm he => h e cm (by simp [he])) x hx

/-- The seat of an active client carries its cid. -/
def SeatOk (h : Hist M) (y : Sys M) (c q f : Nat) : Prop :=
  q ≠ 0 ∧ f ≤ h.E ∧ (Active y c → f = h.E ∧ (h.W h.E q).isSome ∧ ∀ g, h.W h.E 0 = some g → cidAt g.tree q = some c)

inductive Status (h : Hist M) (y : Sys M) (c : Nat) : Prop
  | absent : y.clients c = none → y.kps c = none → y.seen c = false → y.roster c = false → y.down c = [] → Status h y c
  | invited (a b : List (Down M)) : y.clients c = none → y.kps c = none → y.seen c = true → fq y c = a ++ .accepted :: b →
      (∀ x ∈ a, Plain h.E x) → (∀ x ∈ b, Plain h.E x) → Status h y c
  | waiting (s : M) : y.clients c = some ⟨none, s, false⟩ → y.kps c = some ⟨c, P.pub s, 0⟩ → y.seen c = true →
      (∀ x ∈ fq y c, Plain h.E x) → Status h y c
  | welcomed (s : M) (a b : List (Down M)) (wel : Welcome M) (q f : Nat) (hj : GroupState M) :
      y.clients c = some ⟨none, s, false⟩ → y.kps c = none → y.seen c = true →
      fq y c = a ++ .sig (.welcome (some wel)) :: b → (∀ x ∈ a, Plain h.E x) →
      joinFromWelcome P wel s = .ok hj → h.W hj.epoch q = some hj → Track h q hj.epoch b f → SeatOk h y c q f → Status h y c
  | joined (s : M) (g g0 : GroupState M) (q f : Nat) : y.clients c = some ⟨some g, s, false⟩ → y.kps c = none → y.seen c = true →
      Like g g0 → h.W g0.epoch q = some g0 → Track h q g0.epoch (fq y c) f → SeatOk h y c q f → Status h y c

structure SysInv (h : Hist M) (o : Nat) (y : Sys M) : Prop where
  hist : h.Ok P
  owner : ∃ g g0 s, y.owner = ⟨some g, s, true⟩ ∧ Like g g0 ∧ h.W h.E 0 = some g0 ∧ cidAt g0.tree 0 = some o
  up : ∀ e cm, Up.commit e cm ∈ y.up → e ≤ h.E
  bound : h.E + 1 < 2 ^ 64
  notOwner : y.seen o = false
  status : ∀ c, Status P h y c

/-- Nothing changes for `c` but that it may stop being active. -/
theorem status_same {h : Hist M} {y y' : Sys M} {c : Nat} (hs : Status P h y c) (h1 : y'.clients c = y.clients c)
    (h2 : y'.kps c = y.kps c) (h3 : y'.seen c = y.seen c) (h4 : y.roster c = false → y.down c = [] → y'.roster c = false ∧ y'.down c = [])
    (h5 : fq y' c = fq y c) (h6 : Active y' c → Active y c) : Status P h y' c := by
  have seat : ∀ {q f}, SeatOk h y c q f → SeatOk h y' c q f := fun ⟨a, b, d⟩ => ⟨a, b, fun hx => d (h6 hx)⟩
  cases hs with
  | absent a1 a2 a3 a4 a5 => exact .absent (h1.trans a1) (h2.trans a2) (h3.trans a3) (h4 a4 a5).1 (h4 a4 a5).2
  | invited a b a1 a2 a3 a4 a5 a6 => exact .invited a b (h1.trans a1) (h2.trans a2) (h3.trans a3) (h5.trans a4) a5 a6
  | waiting s a1 a2 a3 a4 => exact .waiting s (h1.trans a1) (h2.trans a2) (h3.trans a3) (by rw [h5]; exact a4)
  | welcomed s a b wel q f hj a1 a2 a3 a4 a5 a6 a7 a8 a9 =>
    exact .welcomed s a b wel q f hj (h1.trans a1) (h2.trans a2) (h3.trans a3) (h5.trans a4) a5 a6 a7 a8 (seat a9)
  | joined s g g0 q f a1 a2 a3 a4 a5 a6 a7 =>
    exact .joined s g g0 q f (h1.trans a1) (h2.trans a2) (h3.trans a3) a4 a5 (by rw [h5]; exact a6) (seat a7)

theorem split_plain {E : Nat} {x : Down M} (hx : ¬ Plain E x) : ∀ {a b D Z : List (Down M)}, a ++ x :: b = D ++ Z → (∀ z ∈ Z, Plain E z) →
    ∃ b', D = a ++ x :: b' ∧ b = b' ++ Z
  | [], b, D, Z, h, hz => by
    cases D with
    | nil =>
      exfalso
      refine hx (hz x ?_)
      rw [List.nil_append] at h
      rw [List.nil_append] at h
      rw [← h]; simp
    | cons d D =>
      simp only [List.nil_append, List.cons_append, List.cons.injEq] at h
      exact ⟨D, by rw [h.1]; rfl, h.2⟩
  | y :: a, b, D, Z, h, hz => by
    cases D with
    | nil =>
      exfalso
      refine hx (hz x ?_)
      rw [List.nil_append] at h
      rw [← h]; simp
    | cons d D =>
      simp only [List.cons_append, List.cons.injEq] at h
      obtain ⟨b', h1, h2⟩ := split_plain hx h.2 hz
      exact ⟨b', by rw [h.1, h1]; rfl, h2⟩

/-- The client is taken off the roster. -/
theorem status_off {h : Hist M} {y y' : Sys M} {c : Nat} (hup : ∀ e cm, Up.commit e cm ∈ y.up → e ≤ h.E) (hs : Status P h y c)
    (h1 : y'.clients c = y.clients c) (h2 : y'.kps c = y.kps c) (h3 : y'.seen c = y.seen c) (h4 : y'.roster c = false)
    (h5 : y'.down c = y.down c) : Status P h y' c := by
  have hq' : fq y' c = (y.down c).filter isCtl := by unfold fq; rw [h4, h5]; simp
  have hq : fq y c = fq y' c ++ (if y.roster c then cut c y.up else []) := by rw [hq']; rfl
  have hz : ∀ z ∈ (if y.roster c then cut c y.up else []), Plain h.E z := by
    split
    · exact cut_plain hup
    · simp
  have hna : ¬ Active y' c := by rintro ⟨ha, _⟩; rw [h4] at ha; cases ha
  cases hs with
  | absent a1 a2 a3 a4 a5 => exact .absent (h1.trans a1) (h2.trans a2) (h3.trans a3) h4 (h5.trans a5)
  | invited a b a1 a2 a3 a4 a5 a6 =>
    obtain ⟨b', e1, e2⟩ := split_plain (E := h.E) id (a4.symm.trans hq) hz
    exact .invited a b' (h1.trans a1) (h2.trans a2) (h3.trans a3) e1 a5 fun x hx => a6 x (by rw [e2]; simp [hx])
  | waiting s a1 a2 a3 a4 => exact .waiting s (h1.trans a1) (h2.trans a2) (h3.trans a3) fun x hx => a4 x (by rw [hq]; simp [hx])
  | welcomed s a b wel q f hj a1 a2 a3 a4 a5 a6 a7 a8 a9 =>
    obtain ⟨b', e1, e2⟩ := split_plain (E := h.E) id (a4.symm.trans hq) hz
    rw [e2] at a8
    obtain ⟨f', hf, ht⟩ := a8.prefix
    exact .welcomed s a b' wel q f' hj (h1.trans a1) (h2.trans a2) (h3.trans a3) e1 a5 a6 a7 ht ⟨a9.1, hf.trans a9.2.1, fun ha => absurd ha hna⟩
  | joined s g g0 q f a1 a2 a3 a4 a5 a6 a7 =>
    rw [hq] at a6
    obtain ⟨f', hf, ht⟩ := a6.prefix
    exact .joined s g g0 q f' (h1.trans a1) (h2.trans a2) (h3.trans a3) a4 a5 ht ⟨a7.1, hf.trans a7.2.1, fun ha => absurd ha hna⟩

/-- The owner commits, and `c` stays in the group if it is still active. -/
theorem status_push {h : Hist M} (hh : h.Ok P) {y y' : Sys M} {c : Nat} (hs : Status P h y c) {w' : World M} {g g' : GroupState M}
    {cm : Commit M} {gone : Nat → Prop} (hg : h.W h.E 0 = some g) (hm : Moved P (h.W h.E) w' g g' cm gone)
    (h1 : y'.clients c = y.clients c) (h2 : y'.kps c = y.kps c) (h3 : y'.seen c = y.seen c) (h4 : y'.roster c = y.roster c)
    (h5 : y'.down c = y.down c) (h6 : Active y' c → Active y c) (hgone : Active y' c → ∀ q, gone q → cidAt g.tree q ≠ some c)
    (h7 : (Active y' c ∧ fq y' c = fq y c ++ [.sig (.commit (h.E + 1) (some cm))]) ∨ (¬ Active y' c ∧ fq y' c = fq y c)) :
    Status P (h.push w' cm) y' c := by
  have hE : (h.push w' cm).E = h.E + 1 := rfl
  have hW : ∀ d ≤ h.E, (h.push w' cm).W d = h.W d := fun d hd => by unfold Hist.push; dsimp only; rw [if_neg (by omega)]
  have hW1 : (h.push w' cm).W (h.E + 1) = w' := by unfold Hist.push; dsimp only; rw [if_pos rfl]
  have hC1 : (h.push w' cm).C (h.E + 1) = cm := by unfold Hist.push; dsimp only; rw [if_pos rfl]
  have hpl : ∀ x : Down M, Plain h.E x → Plain (h.push w' cm).E x := by
    intro x hx
    rw [hE]
    cases x with
    | accepted => exact hx
    | sig s =>
      cases s with
      | commit e cm => exact Nat.le_succ_of_le hx
      | _ => exact hx
  have hnew : Plain (h.push w' cm).E (.sig (.commit (h.E + 1) (some cm)) : Down M) := le_rfl
  -- the seat of an active client survives
  have key : ∀ {q f d : Nat} {b : List (Down M)}, SeatOk h y c q f → Track h q d b f → ∀ {b' : List (Down M)},
      (Active y' c → b' = b ++ [.sig (.commit (h.E + 1) (some cm))]) → (¬ Active y' c → b' = b) →
      ∃ f', Track (h.push w' cm) q d b' f' ∧ SeatOk (h.push w' cm) y' c q f' := by
    intro q f d b hseat ht b' hb1 hb2
    by_cases ha : Active y' c
    · obtain ⟨hf, hqs, hcid⟩ := hseat.2.2 (h6 ha)
      have hng : ¬ gone q := fun hx => hgone ha q hx (hcid g hg)
      obtain ⟨gq, hgq⟩ := Option.isSome_iff_exists.1 hqs
      have hwq : w' q = some _ := (hm.others q gq hseat.1 hng hgq).2
      have hs1 : ((h.push w' cm).W (h.E + 1) q).isSome := by rw [hW1, hwq]; rfl
      refine ⟨h.E + 1, ?_, hseat.1, le_rfl, fun _ => ⟨rfl, hs1, fun g1 hg1 => ?_⟩⟩
      · rw [hb1 ha]
        subst hf
        have := (ht.push le_rfl w' cm).snoc hs1
        rw [hC1] at this
        exact this
      · rw [hE, hW1, hm.owner, Option.some.injEq] at hg1
        subst hg1
        rw [hm.cids q hqs hng]
        exact hcid g hg
    · refine ⟨f, ?_, hseat.1, ?_, fun hx => absurd hx ha⟩
      · rw [hb2 ha]
        exact ht.push hseat.2.1 w' cm
      · rw [hE]; exact Nat.le_succ_of_le hseat.2.1
  have hx1 : Active y' c → fq y' c = fq y c ++ [.sig (.commit (h.E + 1) (some cm))] := fun ha => by
    rcases h7 with h7 | h7
    · exact h7.2
    · exact absurd ha h7.1
  have hx2 : ¬ Active y' c → fq y' c = fq y c := fun ha => by
    rcases h7 with h7 | h7
    · exact absurd h7.1 ha
    · exact h7.2
  cases hs with
  | absent a1 a2 a3 a4 a5 => exact .absent (h1.trans a1) (h2.trans a2) (h3.trans a3) (h4.trans a4) (h5.trans a5)
  | invited a b a1 a2 a3 a4 a5 a6 =>
    by_cases ha : Active y' c
    · refine .invited a (b ++ [.sig (.commit (h.E + 1) (some cm))]) (h1.trans a1) (h2.trans a2) (h3.trans a3) ?_ (fun x hx => hpl x (a5 x hx)) ?_
      · rw [hx1 ha, a4]; simp
      · intro x hx
        rcases List.mem_append.1 hx with hx | hx
        · exact hpl x (a6 x hx)
        · simp only [List.mem_cons, List.not_mem_nil, or_false] at hx
          rw [hx]; exact hnew
    · exact .invited a b (h1.trans a1) (h2.trans a2) (h3.trans a3) ((hx2 ha).trans a4) (fun x hx => hpl x (a5 x hx)) (fun x hx => hpl x (a6 x hx))
  | waiting s a1 a2 a3 a4 =>
    refine .waiting s (h1.trans a1) (h2.trans a2) (h3.trans a3) fun x hx => ?_
    by_cases ha : Active y' c
    · rw [hx1 ha] at hx
      rcases List.mem_append.1 hx with hx | hx
      · exact hpl x (a4 x hx)
      · simp only [List.mem_cons, List.not_mem_nil, or_false] at hx
        rw [hx]; exact hnew
    · rw [hx2 ha] at hx
      exact hpl x (a4 x hx)
  | welcomed s a b wel q f hj a1 a2 a3 a4 a5 a6 a7 a8 a9 =>
    have he : hj.epoch ≤ h.E := a8.le.trans a9.2.1
    have hex : ∃ b', fq y' c = a ++ .sig (.welcome (some wel)) :: b' ∧
        (Active y' c → b' = b ++ [.sig (.commit (h.E + 1) (some cm))]) ∧ (¬ Active y' c → b' = b) := by
      by_cases ha : Active y' c
      · exact ⟨b ++ [.sig (.commit (h.E + 1) (some cm))], by rw [hx1 ha, a4]; simp, fun _ => rfl, fun hx => absurd ha hx⟩
      · exact ⟨b, (hx2 ha).trans a4, fun hx => absurd hx ha, fun _ => rfl⟩
    obtain ⟨b', e1, e2, e3⟩ := hex
    obtain ⟨f', t1, t2⟩ := key a9 a8 e2 e3
    exact .welcomed s a b' wel q f' hj (h1.trans a1) (h2.trans a2) (h3.trans a3) e1 (fun x hx => hpl x (a5 x hx)) a6 (by rw [hW _ he]; exact a7) t1 t2
  | joined s g1 g0 q f a1 a2 a3 a4 a5 a6 a7 =>
    obtain ⟨f', t1, t2⟩ := key a7 a6 hx1 hx2
    refine .joined s g1 g0 q f' (h1.trans a1) (h2.trans a2) (h3.trans a3) a4 ?_ t1 t2
    rw [hW _ (a6.le.trans a7.2.1)]
    exact a5

end Verif.GroupCgka

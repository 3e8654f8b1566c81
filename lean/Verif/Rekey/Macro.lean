import Verif.Rekey.Model
/-
What the tasks do between two `.await`s: one lemma per case of `bMacro` and `tMacro`.
-/
namespace Verif.Rekey

/-- The locals of a trigger that has started at version `u` with constructor `c`. -/
abbrev loc (u c : Nat) : TLoc := { vE := u, tm := u, c := c, sn := u, r := 0 }

theorem bSettle_next {maxR : Nat} {init : Bool} {n : Nat} {x y : EP} (hp : bPoint x.b = false)
    (h : bLocal maxR init x = y) : bSettle maxR init (n + 1) x = bSettle maxR init n y := by
  rw [bSettle, hp, h]; rfl

theorem bSettle_stop {maxR : Nat} {init : Bool} {n : Nat} {x : EP} (hp : bPoint x.b = true) :
    bSettle maxR init n x = x := by
  cases n with
  | zero => rfl
  | succ n => rw [bSettle, hp]; rfl

section bg
variable {maxR : Nat} {init : Bool} {x : EP} {inn rest : List Msg} {fr : Nat}

theorem bMacro_recv_nil (hb : x.b = .recv) : bMacro maxR init x [] fr = (x, [], []) := by
  simp [bMacro, bStep, hb, bSettle, bFuel, bPoint]

theorem bMacro_a2b_stale {a lat cur : Nat} (hb : x.b = .recv) (hk : (x.keys x.latest).isSome = true)
    (hl : lat < x.latest) (hs : x.skipped + 1 < maxStale) :
    bMacro maxR init x (.aliceToBob a lat cur :: rest) fr
      = ({ x with cons := del x.cons (cur + 1), skipped := x.skipped + 1, b := .recv }, rest, []) := by
  simp [bMacro, bStep, hb, bSettle, bFuel, bPoint, dispatch, bLocal, hasLatest, hk, hl, skip, Nat.not_le.mpr hs]

theorem bMacro_a2b_leader {a lat cur : Nat} (hb : x.b = .recv) (hk : (x.keys x.latest).isSome = true)
    (hl : lat = x.latest) (hr : x.role = .leader) (hc : x.cons (cur + 1) = none) (hs : x.skipped + 1 < maxStale) :
    bMacro maxR init x (.aliceToBob a lat cur :: rest) fr
      = ({ x with skipped := x.skipped + 1, b := .recv }, rest, []) := by
  subst hl
  simp [bMacro, bStep, hb, bSettle, bFuel, bPoint, dispatch, bLocal, hasLatest, hk, skip, Nat.not_le.mpr hs, hr, hc]

theorem bMacro_a2b_ok {a lat cur : Nat} (hb : x.b = .recv) (hk : (x.keys x.latest).isSome = true)
    (hl : lat = x.latest) (hm : x.rmeta = cur) (hr : x.role = .leader → x.cons (cur + 1) ≠ none) :
    bMacro maxR init x (.aliceToBob a lat cur :: rest) fr = ({ x with b := .bToggle a }, rest, []) := by
  subst hl; subst hm
  have : ¬ (x.role = .leader ∧ x.cons (x.rmeta + 1) = none) := fun h => hr h.1 h.2
  simp [bMacro, bStep, hb, bSettle, bFuel, bPoint, dispatch, bLocal, hasLatest, hk, this]

theorem bMacro_bToggle_contended {a : Nat} (hb : x.b = .bToggle a) (ht : x.tog = true) (hi : init = false) :
    bMacro maxR init x inn fr = ({ x with b := .bContended }, inn, []) := by
  simp [bMacro, bStep, hb, bSettle, bFuel, bPoint, bLocal, ht, hi]

theorem bMacro_bToggle_commit {a : Nat} (hb : x.b = .bToggle a) (h : x.tog = false ∨ init = true) :
    bMacro maxR init x inn fr = ({ x with tog := true, b := .bCommit a }, inn, []) := by
  have : ¬ (x.tog = true ∧ init = false) := by rcases h with h | h <;> simp [h]
  simp [bMacro, bStep, hb, bSettle, bFuel, bPoint, bLocal, this]

theorem bMacro_bContended (hb : x.b = .bContended) :
    bMacro maxR init x inn fr = ({ x with role := .leader, b := .recv }, inn, []) := by
  simp [bMacro, bStep, hb, bSettle, bFuel, bPoint, bLocal]

theorem bMacro_bCommit {a : Nat} (hb : x.b = .bCommit a) :
    bMacro maxR init x inn fr
      = ({ x with most := x.most + 1, keys := put x.keys (x.most + 1) ⟨a, fr⟩, b := .bToggle2 a fr }, inn, []) := by
  simp [bMacro, bStep, hb, bSettle, bFuel, bPoint, commit]

theorem bMacro_bToggle2 {a b : Nat} (hb : x.b = .bToggle2 a b) :
    bMacro maxR init x inn fr = ({ x with tog := true, role := .loser, b := .bSend a b }, inn, []) := by
  simp [bMacro, bStep, hb, bSettle, bFuel, bPoint, bLocal]

theorem bMacro_bSend {a b : Nat} (hb : x.b = .bSend a b) :
    bMacro maxR init x inn fr = ({ x with b := .recv }, inn, [.bobToAlice a b x.rmeta]) := by
  simp [bMacro, bStep, hb, bSettle, bFuel, bPoint]

theorem bMacro_b2a_ok {a b cur : Nat} (hb : x.b = .recv) (hl : cur = x.latest)
    (hr : x.role = .loser → init = true) (hc : x.cons (cur + 1) = some a) :
    bMacro maxR init x (.bobToAlice a b cur :: rest) fr
      = ({ x with role := .leader, cons := del x.cons (cur + 1), b := .aToggle a b }, rest, []) := by
  subst hl
  have : ¬ (x.role = .loser ∧ init = false) := fun h => by rw [hr h.1] at h; exact absurd h.2 (by simp)
  simp [bMacro, bStep, hb, bSettle, bFuel, bPoint, bLocal, dispatch, this, hc]

theorem bMacro_aToggle {a b : Nat} (hb : x.b = .aToggle a b) :
    bMacro maxR init x inn fr = ({ x with tog := true, b := .aCommit a b }, inn, []) := by
  simp [bMacro, bStep, hb, bSettle, bFuel, bPoint, bLocal]

theorem bMacro_aCommit_full {a b : Nat} (hb : x.b = .aCommit a b) (hm : (x.most + 1) - x.oldest + 1 ≥ maxR) :
    bMacro maxR init x inn fr
      = ({ x with most := x.most + 1, keys := put x.keys (x.most + 1) ⟨a, b⟩, b := .aDereg x.oldest }, inn, []) := by
  have hm' : maxR ≤ x.most + 1 - x.oldest + 1 := hm
  simp [bMacro, bStep, hb, bSettle, bFuel, bPoint, bLocal, commit, hm']

theorem bMacro_aCommit_room {a b : Nat} (hb : x.b = .aCommit a b) (hm : ¬ (x.most + 1) - x.oldest + 1 ≥ maxR) :
    bMacro maxR init x inn fr
      = ({ x with most := x.most + 1, keys := put x.keys (x.most + 1) ⟨a, b⟩, b := .aSendLoser }, inn, []) := by
  have hm' : ¬ maxR ≤ x.most + 1 - x.oldest + 1 := hm
  simp [bMacro, bStep, hb, bSettle, bFuel, bPoint, bLocal, commit, hm']

theorem bMacro_aDereg {v : Nat} (hb : x.b = .aDereg v) (hm : ¬ x.most - x.oldest + 1 < maxR) (ho : x.oldest = v) :
    bMacro maxR init x inn fr
      = ({ x with keys := del x.keys x.oldest, oldest := x.oldest + 1, b := .aSendTrunc v }, inn, []) := by
  have hd : dereg maxR x v = some { x with keys := del x.keys x.oldest, oldest := x.oldest + 1 } := by
    rw [dereg, if_neg hm, if_neg (by simp [ho])]
  simp only [bMacro, bStep, hb, bLocal, hd]
  rw [bSettle_stop rfl]

theorem bMacro_aSendTrunc {v : Nat} (hb : x.b = .aSendTrunc v) :
    bMacro maxR init x inn fr = ({ x with b := .recv }, inn, [.truncate v]) := by
  simp [bMacro, bStep, hb, bSettle, bFuel, bPoint]

theorem bMacro_aSendLoser (hb : x.b = .aSendLoser) :
    bMacro maxR init x inn fr = ({ x with b := .recv }, inn, [.loserCanFinish]) := by
  simp [bMacro, bStep, hb, bSettle, bFuel, bPoint]

theorem bMacro_loserCanFinish (hb : x.b = .recv) (hr : x.role = .loser)
    (hk : (x.keys (x.latest + 1)).isSome = true) :
    bMacro maxR init x (.loserCanFinish :: rest) fr
      = ({ x with latest := x.latest + 1, declared := x.latest + 1, cons := del x.cons (x.latest + 2), b := .lSend },
         rest, []) := by
  simp [bMacro, bStep, hb, bSettle, bFuel, bPoint, bLocal, dispatch, hr, hk]

theorem bMacro_truncate {v : Nat} (hb : x.b = .recv) (hr : x.role = .loser)
    (hm : ¬ x.most - x.oldest + 1 < maxR) (ho : x.oldest = v) (hne : x.latest + 1 ≠ x.oldest)
    (hk : (x.keys (x.latest + 1)).isSome = true) :
    bMacro maxR init x (.truncate v :: rest) fr
      = ({ x with latest := x.latest + 1, declared := x.latest + 1, cons := del x.cons (x.latest + 2)
                  keys := del x.keys x.oldest, oldest := x.oldest + 1, b := .lSend }, rest, []) := by
  have hk' : (del x.keys x.oldest (x.latest + 1)).isSome = true := by
    unfold del; rw [if_neg hne]; exact hk
  subst ho
  have e : bStep maxR init x (.truncate x.oldest :: rest) fr
      = ({ x with b := .lRole (some x.oldest) }, rest, []) := by simp only [bStep, hb, dispatch]
  rw [bMacro, e]
  dsimp only [bFuel]
  rw [bSettle_next (n := 11) (y := { x with keys := del x.keys x.oldest, oldest := x.oldest + 1, b := .lBump }) rfl
      (by simp only [bLocal, hr, dereg]; rw [if_neg hm]; simp),
    bSettle_next (n := 10) (y := { x with keys := del x.keys x.oldest, oldest := x.oldest + 1, b := .lSync
                                          latest := x.latest + 1 }) rfl
      (by simp only [bLocal, hk', if_true]),
    bSettle_next (n := 9) rfl rfl, bSettle_next (n := 8) rfl rfl, bSettle_stop rfl]
  rfl

theorem bMacro_lSend (hb : x.b = .lSend) :
    bMacro maxR init x inn fr = ({ x with b := .retain }, inn, [.leaderCanFinish x.latest]) := by
  simp [bMacro, bStep, hb, bSettle, bFuel, bPoint]

theorem bMacro_leaderCanFinish {v : Nat} (hb : x.b = .recv) (hr : x.role ≠ .loser)
    (hk : (x.keys (x.latest + 1)).isSome = true) (hv : v = x.latest + 1) :
    bMacro maxR init x (.leaderCanFinish v :: rest) fr
      = ({ x with latest := x.latest + 1, declared := x.latest + 1, role := .leader, b := .retain }, rest, []) := by
  subst hv
  simp [bMacro, bStep, hb, bSettle, bFuel, bPoint, bLocal, dispatch, hr, hk]

theorem bMacro_retain (hb : x.b = .retain) (hk : (x.keys x.latest).isSome = true) :
    bMacro maxR init x inn fr
      = ({ x with cons := fun j => if x.latest < j then x.cons j else none, role := .idle, tog := false
                  rmeta := x.latest, skipped := 0, b := .recv }, inn, []) := by
  simp [bMacro, bStep, hb, bSettle, bFuel, bPoint, bLocal, currentVersion, hk]

end bg

section trig
variable {x : EP} {fr : Nat}

/-- The call returns: nothing but the toggle is read. -/
theorem tMacro_refused (ht : x.t = .idle) (h : x.latest < x.declared ∨ x.role ≠ .idle ∨ x.tog = true) :
    tMacro x fr = (x, []) := by
  have e : ∀ y : EP, y = x → ({ y with t := .idle } : EP) = x := by
    intro y hy; subst hy; rw [← ht]
  rcases Nat.lt_or_ge x.latest x.declared with hd | hd
  · simp [tMacro, tStep, ht, tSettle, tFuel, tPoint, tLocal, hd]
    rw [← ht]
  · have hd' : ¬ x.latest < x.declared := by omega
    by_cases hr : x.role = .idle
    · have htg : x.tog = true := by
        rcases h with h | h | h
        · omega
        · exact absurd hr h
        · exact h
      simp [tMacro, tStep, ht, tSettle, tFuel, tPoint, tLocal, hd', hr, htg, maxRetries]
      rw [← ht, ← hr, ← htg]
    · simp [tMacro, tStep, ht, tSettle, tFuel, tPoint, tLocal, hd', hr]
      rw [← ht]

theorem tMacro_start (ht : x.t = .idle) (hd : x.declared ≤ x.latest) (hr : x.role = .idle) (htg : x.tog = false)
    (hk : (x.keys x.latest).isSome = true) :
    tMacro x fr = ({ x with tog := true, t := .declare (loc x.latest fr) }, []) := by
  have hd' : ¬ x.latest < x.declared := by omega
  simp [tMacro, tStep, ht, tSettle, tFuel, tPoint, tLocal, hd', hr, htg, hasLatest, hk, maxRetries]

theorem tMacro_declare {u c : Nat} (ht : x.t = .declare (loc u c)) :
    tMacro x fr = ({ x with declared := x.declared + 1, cons := put x.cons (u + 1) c, tog := true
                            t := .check (loc u c) }, []) := by
  simp [tMacro, tStep, ht, tSettle, tFuel, tPoint, tLocal]

theorem tMacro_check_ok {u c : Nat} (ht : x.t = .check (loc u c)) (hu : x.latest = u) :
    tMacro x fr = ({ x with t := .send (loc u c) }, []) := by
  simp [tMacro, tStep, ht, tSettle, tFuel, tPoint, tLocal, hu]

theorem tMacro_check_stale {u c : Nat} (ht : x.t = .check (loc u c)) (hu : x.latest ≠ u) :
    tMacro x fr = ({ x with declared := x.latest, cons := del x.cons (u + 1), tog := false
                            t := .sleep (loc u c) }, []) := by
  simp [tMacro, tStep, ht, tSettle, tFuel, tPoint, tLocal, hu]

theorem tMacro_sleep {u c : Nat} (ht : x.t = .sleep (loc u c)) (hu : u < x.latest) :
    tMacro x fr = ({ x with t := .idle }, []) := by
  simp [tMacro, tStep, ht, tSettle, tFuel, tPoint, tLocal, hu, maxRetries]

theorem tMacro_send {u c : Nat} (ht : x.t = .send (loc u c)) :
    tMacro x fr = ({ x with t := .idle }, [.aliceToBob c u u]) := by
  simp [tMacro, tStep, ht, tSettle, tFuel, tPoint]

end trig
end Verif.Rekey

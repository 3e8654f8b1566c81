import Verif.GroupCgka.Model
import Verif.TreeKem.Props
/-
C28, C71, C75, C78, and the replay part of C27.
-/
namespace Verif.GroupCgka

open Verif.TreeKem Verif.TreeMath Verif.Sym

variable {M : Type} (P : Prims M)

/-! ### C28 -/

def epochOf (c : Cgka M) : Option Nat := c.group.map (·.epoch)

/-- A client that gets commits with announced epochs, in the order of the list; also the announced epochs of those that it
applied. -/
def runCommits (c : Cgka M) : List (Nat × Option (Commit M)) → Cgka M × List Nat
  | [] => (c, [])
  | (e, cm) :: rest =>
    let r := processCommit P c cm e
    let r' := runCommits r.1 rest
    (r'.1, if epochOf r.1 = epochOf c then r'.2 else e :: r'.2)

theorem tk_process_epoch (g : GroupState M) (cm : Commit M) :
    ((TreeKem.processCommit P g cm).2 = .ok () ∧ (TreeKem.processCommit P g cm).1.epoch = g.epoch + 1) ∨
      ((TreeKem.processCommit P g cm).2 ≠ .ok () ∧ (TreeKem.processCommit P g cm).1.epoch = g.epoch ∧
        (TreeKem.processCommit P g cm).1.secrets = g.secrets ∧ (TreeKem.processCommit P g cm).1.transcript = g.transcript) := by
  unfold TreeKem.processCommit
  split
  · exact .inr ⟨by simp, rfl, rfl, rfl⟩
  · split
    · exact .inr ⟨by simp, rfl, rfl, rfl⟩
    · exact .inr ⟨by simp, rfl, rfl, rfl⟩
    · exact .inl ⟨rfl, rfl⟩

theorem process_epoch {c : Cgka M} {g : GroupState M} (hg : c.group = some g) (cm : Option (Commit M)) (e : Nat) :
    ∃ g', (processCommit P c cm e).1.group = some g' ∧ (g'.epoch = g.epoch ∨ (e = g.epoch + 1 ∧ g'.epoch = g.epoch + 1)) := by
  unfold processCommit
  rw [hg]
  dsimp only
  split
  · exact ⟨g, hg, .inl rfl⟩
  · split
    · exact ⟨g, hg, .inl rfl⟩
    · rename_i he
      push Not at he
      split
      · exact ⟨g, hg, .inl rfl⟩
      · rename_i cm
        rcases tk_process_epoch P g cm with h | h
        · exact ⟨_, rfl, .inr ⟨he, h.2⟩⟩
        · exact ⟨_, rfl, .inl h.2.1⟩

/-- C28, as far as the announced epoch goes: a commit announced for another epoch than the next one changes nothing; an applied
one moves the epoch up by one; a failing one leaves epoch and secrets as they are. Missing: the announced epoch is not tied to the
commit, see `C28_counterexample`. -/
theorem C28_gate_partial {c : Cgka M} {g : GroupState M} (hg : c.group = some g) (cm : Option (Commit M)) (e : Nat)
    (h64 : g.epoch + 1 < 2 ^ 64) :
    (e ≠ g.epoch + 1 → processCommit P c cm e = (c, .ok ())) ∧
    (e = g.epoch + 1 → ∃ g', (processCommit P c cm e).1 = { c with group := some g' } ∧
      ((processCommit P c cm e).2 = .ok () → g'.epoch = g.epoch + 1) ∧
      ((processCommit P c cm e).2 ≠ .ok () → g'.epoch = g.epoch ∧ g'.secrets = g.secrets ∧ g'.transcript = g.transcript)) := by
  unfold processCommit
  rw [hg]
  dsimp only
  rw [if_neg (by omega)]
  constructor
  · intro he
    rw [if_pos he]
  · intro he
    rw [if_neg (by simpa using he)]
    cases cm with
    | none => exact ⟨g, by rw [← hg], by simp, fun _ => ⟨rfl, rfl, rfl⟩⟩
    | some cm =>
      refine ⟨_, rfl, fun h => ?_, fun h => ?_⟩
      · rcases tk_process_epoch P g cm with h' | h'
        · exact h'.2
        · exact absurd h h'.1
      · rcases tk_process_epoch P g cm with h' | h'
        · exact absurd h'.1 h
        · exact h'.2

/-- C28, for whole sequences: whatever commits arrive with whatever announced epochs, the epoch never goes down, and those that
were applied were announced for consecutive epochs, each exactly once. -/
theorem C28_in_order_partial (cs : List (Nat × Option (Commit M))) {c : Cgka M} {g : GroupState M} (hg : c.group = some g) :
    ∃ g', (runCommits P c cs).1.group = some g' ∧ g.epoch ≤ g'.epoch ∧
      (runCommits P c cs).2 = List.range' (g.epoch + 1) (g'.epoch - g.epoch) := by
  induction cs generalizing c g with
  | nil => exact ⟨g, hg, le_rfl, by simp [runCommits]⟩
  | cons x rest ih =>
    obtain ⟨e, cm⟩ := x
    obtain ⟨g1, h1, h2⟩ := process_epoch P hg cm e
    obtain ⟨g', h3, h4, h5⟩ := ih h1
    refine ⟨g', h3, by omega, ?_⟩
    unfold runCommits
    dsimp only
    rw [h5]
    have e0 : epochOf c = some g.epoch := by unfold epochOf; rw [hg]; rfl
    have e1 : epochOf (processCommit P c cm e).1 = some g1.epoch := by unfold epochOf; rw [h1]; rfl
    rw [e0, e1]
    rcases h2 with h2 | ⟨h2, h2'⟩
    · rw [if_pos (by rw [h2]), h2]
    · rw [if_neg (by rw [Option.some.injEq]; omega), h2, h2', show g'.epoch - g.epoch = (g'.epoch - (g.epoch + 1)) + 1 by omega, List.range'_succ]

/-- A client that has been moved past an epoch never applies the commit for it. -/
theorem C28_missed_is_final_partial (cs : List (Nat × Option (Commit M))) {c : Cgka M} {g : GroupState M} (hg : c.group = some g)
    (hcs : ∀ x ∈ cs, x.1 ≠ g.epoch + 1) (h64 : g.epoch + 1 < 2 ^ 64) : (runCommits P c cs).1 = c := by
  induction cs with
  | nil => rfl
  | cons x rest ih =>
    obtain ⟨e, cm⟩ := x
    unfold runCommits
    dsimp only
    rw [(C28_gate_partial P hg cm e h64).1 (hcs (e, cm) (by simp))]
    exact ih fun y hy => hcs y (List.mem_cons_of_mem _ hy)

section

/-- Owner 1 adds 2 and 3 and removes 3; 2 gets everything in order. -/
def exR : Nat → Nat → Nat := fun _ _ => 0

def exOwner0 : Cgka Term := newOwner symPrims 1 (.fresh 0)
def exAdd1 := addMember symPrims exOwner0 (some (keyPackage symPrims 2 (.fresh 1))) (.fresh 2) exR 0
def exAdd2 := addMember symPrims exAdd1.1 (some (keyPackage symPrims 3 (.fresh 3))) (.fresh 4) exR 0
def exKick := removeByCid symPrims exAdd2.1 3 (.fresh 5) exR

def resVal {A : Type} : Res A → Option A
  | .ok a => some a
  | _ => none

def exWelcome : Option (Welcome Term) := (resVal exAdd1.2).map (·.1)
def exCommit2 : Option (Commit Term) := (resVal exAdd2.2).map (·.2.1)
def exCommit3 : Option (Commit Term) := (resVal exKick.2).bind fun x => x.map (·.1)

def exMember : Cgka Term := (join symPrims (newJoiner symPrims 2 (.fresh 1)).1 exWelcome).1
def exMember3 : Cgka Term := (runCommits symPrims exMember [(2, exCommit2), (3, exCommit3)]).1

/-- The hypotheses are met: the member is in the owner's epoch, with the owner's secrets. -/
example : (exMember3.group.map fun g => (g.epoch, g.secrets)) = (exKick.1.group.map fun g => (g.epoch, g.secrets)) ∧
    epochOf exMember3 = some 3 := by decide +kernel

/-- C28 is false of the code once the relay announces a commit for another epoch than it was made for: it replays the last commit as
one for epoch 4; the member applies it a second time, is ahead of the owner with other secrets, and ignores the owner's real
next commit. -/
theorem C28_counterexample :
    let again := runCommits symPrims exMember3 [(4, exCommit3)]
    again.2 = [4] ∧ epochOf again.1 = some 4 ∧ epochOf exKick.1 = some 3 ∧
      (let real := addMember symPrims exKick.1 (some (keyPackage symPrims 4 (.fresh 6))) (.fresh 7) exR 0
       epochOf real.1 = some 4 ∧ (runCommits symPrims again.1 [(4, (resVal real.2).map (·.2.1))]).2 = [] ∧
         (again.1.group.map (·.secrets)) ≠ (real.1.group.map (·.secrets))) := by
  decide +kernel

end

/-! ### C71 -/

/-- C71 is false of the code: a `KeyPackage` that does not deserialize ends the session of whoever it is relayed to, in any
state; the server relays it from any client to any client (`route_packet_to(key.cid)`). -/
theorem C71_counterexample (cl : Option (Cgka M)) (s : M) (rnd : Nat → Nat → Nat) (rw joiner : Nat) :
    onSignal P cl s rnd rw (.keyPackage joiner none) = (cl, .ended) := by
  unfold onSignal
  cases cl with
  | none => rfl
  | some c =>
    unfold addMember
    dsimp only
    split <;> rfl

/-- The same with a `Welcome`, and, for anyone but an owner, with a well-formed `KeyPackage`. -/
theorem C71_counterexample_welcome (cl : Option (Cgka M)) (s : M) (rnd : Nat → Nat → Nat) (rw : Nat) :
    onSignal P cl s rnd rw (.welcome none) = (cl, .ended) ∧
      ∀ joiner kp, (∀ c, cl = some c → c.isOwner = false) → onSignal P cl s rnd rw (.keyPackage joiner kp) = (cl, .ended) := by
  unfold onSignal
  cases cl with
  | none => exact ⟨rfl, fun _ _ _ => rfl⟩
  | some c =>
    refine ⟨rfl, fun joiner kp h => ?_⟩
    unfold addMember
    dsimp only
    rw [if_pos (h c rfl)]
    rfl

/-- C71 for messages and for commits of other epochs or unknown groups: they never end a session, never panic, and change
nothing. -/
theorem C71_messages_partial (cl : Option (Cgka M)) (s : M) (rnd : Nat → Nat → Nat) (rw : Nat) (a : Option (AppMsg M)) :
    (onSignal P cl s rnd rw (.message a)).1 = cl ∧
      ((onSignal P cl s rnd rw (.message a)).2 = .nothing ∨ ∃ m, (onSignal P cl s rnd rw (.message a)).2 = .plain m) := by
  unfold onSignal
  cases cl with
  | none => exact ⟨rfl, .inl rfl⟩
  | some c =>
    refine ⟨rfl, ?_⟩
    dsimp only
    split
    · exact .inr ⟨_, rfl⟩
    · exact .inl rfl

theorem C71_commits_partial (cl : Option (Cgka M)) (s : M) (rnd : Nat → Nat → Nat) (rw e : Nat) (cm : Option (Commit M))
    (h : ∀ c g, cl = some c → c.group = some g → e ≠ g.epoch + 1 ∧ g.epoch + 1 < 2 ^ 64) :
    onSignal P cl s rnd rw (.commit e cm) = (cl, .nothing) := by
  unfold onSignal
  cases cl with
  | none => rfl
  | some c =>
    dsimp only
    cases hg : c.group with
    | none => unfold processCommit; rw [hg]; rfl
    | some g =>
      obtain ⟨h1, h2⟩ := h c g rfl hg
      rw [(C28_gate_partial P hg cm e h2).1 h1]
      rfl

/-! ### C78 -/

/-- Signals never remove a client's entry for a group. -/
theorem entry_stays (c : Cgka M) (s : M) (rnd : Nat → Nat → Nat) (rw : Nat) (sig : Sig M) :
    ((onSignal P (some c) s rnd rw sig).1).isSome := by
  cases sig <;> rfl

/-- C78 is false of the code: once a client has an entry for the group (from having joined it before), being accepted again
publishes no key package, whatever happened in between; so the owner never adds it again. -/
theorem C78_counterexample (c : Cgka M) (sigs : List (Sig M × M × (Nat → Nat → Nat) × Nat)) (cid : Nat) (s : M) :
    (publish P (sigs.foldl (fun cl x => (onSignal P cl x.2.1 x.2.2.1 x.2.2.2 x.1).1) (some c)) cid s).2 = none := by
  induction sigs generalizing c with
  | nil => rfl
  | cons x rest ih =>
    rw [List.foldl_cons]
    obtain ⟨c', hc'⟩ := Option.isSome_iff_exists.1 (entry_stays P c x.2.1 x.2.2.1 x.2.2.2 x.1)
    rw [hc']
    exact ih c'

/-- C78 for a client without an entry: it publishes a key package with its cid and the public key of the secret it keeps. -/
theorem C78_first_join_partial (cid : Nat) (s : M) :
    publish P none cid s = (some ⟨none, s, false⟩, some ⟨cid, P.pub s, 0⟩) := rfl

/-! ### C75 -/

/-- A Welcome for a made-up group of two, with root secret `r`, init secret `i` and transcript `tr`, to whoever has the leaf key
`pk`. -/
def forgedWelcome (pk r i tr : M) (epoch rw : Nat) : Welcome M :=
  ⟨[.leaf ⟨0, pk, 0⟩, .blank, .leaf ⟨0, pk, 1⟩], epoch, tr, 0, 1, P.enc pk (P.cat r i) rw⟩

/-- C75 is false of the code: any client that knows the public leaf key of a member (every other member does, and it never
changes unless the member is the owner) can replace the member's group state at any time by one whose secrets it chose. -/
theorem C75_counterexample (hP : Lawful P) (c : Cgka M) (r i tr : M) (hr : P.isSecret r = true) (hi : P.isSecret i = true)
    (epoch rw : Nat) (s : M) (rnd : Nat → Nat → Nat) (rw' : Nat) :
    ∃ g, onSignal P (some c) s rnd rw' (.welcome (some (forgedWelcome P (P.pub c.leafSecret) r i tr epoch rw))) =
      (some { c with group := some g }, .nothing) ∧ g.epoch = epoch ∧ g.secrets = derive P r i tr := by
  have hd : directPathC 0 2 = some [1] := by decide +kernel
  have hj : ∃ g, joinFromWelcome P (forgedWelcome P (P.pub c.leafSecret) r i tr epoch rw) c.leafSecret = .ok g ∧ g.epoch = epoch ∧
      g.secrets = derive P r i tr := by
    unfold joinFromWelcome forgedWelcome
    dsimp only
    rw [hP.dec_enc]
    dsimp only
    rw [hP.split_cat _ _ hr hi]
    dsimp only [numLeaves, List.length_cons, List.length_nil]
    rw [hd]
    exact ⟨_, rfl, rfl, rfl⟩
  obtain ⟨g, h1, h2, h3⟩ := hj
  refine ⟨g, ?_, h2, h3⟩
  unfold onSignal join
  dsimp only
  rw [h1]
  rfl

/-- With the replayed own Welcome the member goes back to the epoch in which it joined, from any later state. -/
theorem C75_counterexample_replay {c c' : Cgka M} {w : Welcome M} {g : GroupState M}
    (hj : joinFromWelcome P w c.leafSecret = .ok g) (hc' : c'.leafSecret = c.leafSecret) :
    (join P c' (some w)).1.group = some g ∧ (join P c' (some w)).2 = .ok () := by
  unfold join
  dsimp only
  rw [hc', hj]
  exact ⟨rfl, rfl⟩

/-- C27 is false under such a replay: the first message after it is sealed with the same key and nonce as the first message after
the original join. -/
theorem C27_counterexample_replay {c c' : Cgka M} {w : Welcome M} {g : GroupState M}
    (hj : joinFromWelcome P w c.leafSecret = .ok g) (hc' : c'.leafSecret = c.leafSecret) (m m' : M) :
    ∃ k a a', (encrypt P (join P c (some w)).1 m).2 = .ok a ∧ (encrypt P (join P c' (some w)).1 m').2 = .ok a' ∧
      a.ct = P.aeadSeal k m ∧ a'.ct = P.aeadSeal k m' := by
  have h1 := (C75_counterexample_replay P hj (c' := c) rfl).1
  have h2 := (C75_counterexample_replay P hj hc').1
  refine ⟨P.msgKey g.secrets.encryption g.ownLeaf g.gen, ?_⟩
  unfold encrypt
  rw [h1, h2]
  exact ⟨_, _, rfl, rfl, rfl, rfl⟩

/-- C75 for clients that have not joined: without a key package of theirs no Welcome is accepted. -/
theorem C75_no_entry_partial (w : Option (Welcome M)) (s : M) (rnd : Nat → Nat → Nat) (rw : Nat) :
    (onSignal P none s rnd rw (.welcome w)).1 = none := rfl

end Verif.GroupCgka

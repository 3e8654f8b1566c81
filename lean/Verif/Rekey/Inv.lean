import Verif.Rekey.Macro
/-
The states the cooperative scheduler reaches, by the stage of the running re-key.

Let `v` be the smaller of the two usable versions.  Either the non-initiator drives the round (`NMode`: it has proposed
`v + 1`, or nobody has yet), while the trigger task of the initiator does what it likes, or the initiator drives it
(`IMode`: the non-initiator has taken up its proposal), and then nothing else moves.
-/
namespace Verif.Rekey

/-- Only proposals that are older than `v`. -/
def Old (v : Nat) (l : List Msg) : Prop := ∀ m ∈ l, ∃ a u, m = .aliceToBob a u u ∧ u < v

/-- The loser has seen the end of the round but has not yet closed it. -/
def Late (x : EP) : Prop := x.b = .lSend ∨ x.b = .retain

/-- Nothing of a proposal is left behind. -/
def Clean (x : EP) : Prop :=
  x.declared = x.latest ∧ x.cons (x.latest + 1) = none ∧ (x.b = .recv → x.tog = false)

/-- The trigger task of the initiator and its proposals under way, `tr`. -/
inductive Trig (q : Prop) (x : EP) (tr : List Msg) : Prop where
  | rest (ht : x.t = .idle) (ho : Old x.latest tr) (hc : q → Clean x)
  | sent (a : Nat) (pre : List Msg) (ht : x.t = .idle) (htr : tr = pre ++ [.aliceToBob a x.latest x.latest])
      (ho : Old x.latest pre) (hc : x.cons (x.latest + 1) = some a) (hd : x.declared = x.latest + 1) (hl : ¬ Late x)
  | fresh8 (c : Nat) (ht : x.t = .declare (loc x.latest c)) (ho : Old x.latest tr) (hd : x.declared = x.latest)
      (hl : ¬ Late x)
  | fresh11 (c : Nat) (ht : x.t = .check (loc x.latest c)) (ho : Old x.latest tr)
      (hc : x.cons (x.latest + 1) = some c) (hd : x.declared = x.latest + 1) (hl : ¬ Late x)
  | fresh15 (c : Nat) (ht : x.t = .send (loc x.latest c)) (ho : Old x.latest tr)
      (hc : x.cons (x.latest + 1) = some c) (hd : x.declared = x.latest + 1) (hl : ¬ Late x)
  | stale8 (u c : Nat) (hu : u < x.latest) (ht : x.t = .declare (loc u c)) (ho : Old x.latest tr) (hc : q → Clean x)
  | stale11 (u c : Nat) (hu : u < x.latest) (ht : x.t = .check (loc u c)) (ho : Old x.latest tr)
      (hc : q → x.cons (x.latest + 1) = none)
  | stale15 (u c : Nat) (hu : u < x.latest) (ht : x.t = .send (loc u c)) (ho : Old x.latest tr) (hc : q → Clean x)
  | sleep (u c : Nat) (hu : u < x.latest) (ht : x.t = .sleep (loc u c)) (ho : Old x.latest tr) (hc : q → Clean x)

/-- What is known of the initiator's trigger task while the non-initiator drives; `q`: the non-initiator has not
proposed anything. -/
structure Noise (q : Prop) (x : EP) (tr : List Msg) : Prop where
  dc : x.latest ≤ x.declared
  hi : ∀ k, x.latest + 1 < k → x.cons k = none
  lo : q → x.b = .recv → ∀ k, k ≤ x.latest → x.cons k ≠ none → ∃ u c, x.t = .check (loc u c) ∧ k = u + 1
  st : Trig q x tr

/-- How many proposals the trigger task may still send before the version moves. -/
def budget (x : EP) : Nat :=
  match x.t with
  | .idle => if x.declared ≤ x.latest then 1 else 0
  | .send l => if l.sn = x.latest then 1 else 2
  | _ => 1

/-- The proposal the non-initiator is looking at. -/
def inProc (x : EP) : List Msg :=
  match x.b with
  | .bToggle a => [.aliceToBob a x.latest x.latest]
  | _ => []

/-- Skipped messages that count. -/
def nskip (x : EP) : Nat := if x.b = .retain then 0 else x.skipped

/-- Key stores: contiguous windows, the same ratchet for the same version. -/
structure Win (i n : EP) : Prop where
  hI : ∀ k, (i.keys k).isSome = true ↔ i.oldest ≤ k ∧ k ≤ i.most
  hN : ∀ k, (n.keys k).isSome = true ↔ n.oldest ≤ k ∧ k ≤ n.most
  agree : ∀ k p q, i.keys k = some p → n.keys k = some q → p = q
  loI : i.oldest ≤ i.latest
  loN : n.oldest ≤ n.latest

/-- Where the background task of an endpoint with an own proposal may be. -/
def Busy (x : EP) : Prop :=
  (x.b = .recv ∨ (∃ a, x.b = .bToggle a) ∨ x.b = .bContended) ∧ x.role ≠ .loser

/-- What the non-initiator has proposed at version `v`, and what of it is under way. -/
inductive NP (v : Nat) (x : EP) : List Msg → Prop where
  | none (ht : x.t = .idle) (hg : x.tog = false) (hd : x.declared = v) (hc : x.cons (v + 1) = none)
      (hb : x.b = .recv ∨ ∃ a, x.b = .bToggle a) (hr : x.role = .idle) : NP v x []
  | fin (ht : x.t = .idle) (hd : x.declared = v) (hc : x.cons (v + 1) = none) (hb : x.b = .retain)
      (hr : x.role ≠ .idle) : NP v x []
  | t8 (c : Nat) (ht : x.t = .declare (loc v c)) (hg : x.tog = true) (hd : x.declared = v)
      (hc : x.cons (v + 1) = Option.none) (hb : Busy x) : NP v x []
  | t11 (c : Nat) (ht : x.t = .check (loc v c)) (hg : x.tog = true) (hd : x.declared = v + 1)
      (hc : x.cons (v + 1) = some c) (hb : Busy x) : NP v x []
  | t15 (c : Nat) (ht : x.t = .send (loc v c)) (hg : x.tog = true) (hd : x.declared = v + 1)
      (hc : x.cons (v + 1) = some c) (hb : Busy x) : NP v x []
  | out (c : Nat) (ht : x.t = .idle) (hg : x.tog = true) (hd : x.declared = v + 1)
      (hc : x.cons (v + 1) = some c) (hb : Busy x) : NP v x [.aliceToBob c v v]

/-- The non-initiator has no proposal of its own. -/
def Free (x : EP) : Prop := x.t = .idle ∧ x.declared = x.latest

/-- Waiting for messages with nothing going on, or closing a round. -/
def Rest (x : EP) : Prop := (x.b = .recv ∧ x.role = .idle ∧ x.rmeta = x.latest) ∨ (x.b = .retain ∧ x.role ≠ .idle)

/-- An endpoint whose proposal `c` for `v + 1` is out. -/
structure Out (v c : Nat) (x : EP) : Prop where
  ht : x.t = .idle
  hg : x.tog = true
  hd : x.declared = v + 1
  hc : x.cons (v + 1) = some c
  hb : Busy x

/-- An endpoint whose proposal has been answered: it completes the round as leader. -/
structure Taken (v : Nat) (x : EP) : Prop where
  ht : x.t = .idle
  hd : x.declared = v + 1
  hc : x.cons (v + 1) = none
  hr : x.role = .leader

/-- The leader between the answer and its sending of `Truncate`/`LoserCanFinish`; `y` is the other endpoint. -/
inductive Leading (maxR v c b : Nat) (x y : EP) : Prop where
  | commit (hb : x.b = .aToggle c b ∨ x.b = .aCommit c b) (hm : x.most = v) (ho : y.oldest = x.oldest)
  | full (o : Nat) (hb : x.b = .aDereg o) (hm : x.most = v + 1) (ho : x.oldest = o) (ho' : y.oldest = x.oldest)
      (hx : maxR + o ≤ v + 2)
  | trunc (o : Nat) (hb : x.b = .aSendTrunc o) (hm : x.most = v + 1) (ho : x.oldest = o + 1) (ho' : y.oldest = o)
      (hx : maxR + o ≤ v + 2)
  | room (hb : x.b = .aSendLoser) (hm : x.most = v + 1) (ho' : y.oldest = x.oldest)

/-- The leader's message to the loser is under way. -/
inductive Forward (maxR v : Nat) (x y : EP) : List Msg → Prop where
  | trunc (o : Nat) (ho : x.oldest = o + 1) (ho' : y.oldest = o) (hx : maxR + o ≤ v + 2) :
      Forward maxR v x y [.truncate o]
  | room (ho' : y.oldest = x.oldest) : Forward maxR v x y [.loserCanFinish]

/-- The answerer while it takes up the proposal `c` for `v + 1`. -/
inductive Answering (v c : Nat) (x : EP) : Prop where
  | start (hb : x.b = .bToggle c ∨ x.b = .bCommit c) (hr : x.role = .idle) (hm : x.most = v)
  | done (b : Nat) (hb : x.b = .bToggle2 c b) (hr : x.role = .idle) (hm : x.most = v + 1)
      (hk : x.keys (v + 1) = some ⟨c, b⟩)
  | send (b : Nat) (hb : x.b = .bSend c b) (hr : x.role = .loser) (hm : x.most = v + 1)
      (hk : x.keys (v + 1) = some ⟨c, b⟩)

/-- The answerer after its answer, at version `v`. -/
structure Answered (v c b : Nat) (x : EP) : Prop where
  hb : x.b = .recv
  hr : x.role = .loser
  hm : x.most = v + 1
  hk : x.keys (v + 1) = some ⟨c, b⟩

/-! ### The non-initiator drives -/

structure Quiet (s : Sys) : Prop where
  ver : s.i.latest = s.n.latest
  mI : s.i.most = s.n.latest
  mN : s.n.most = s.n.latest
  old : s.i.oldest = s.n.oldest
  cN : ∀ k, k ≠ s.n.latest + 1 → s.n.cons k = none
  rm : s.n.b ≠ .retain → s.n.rmeta = s.n.latest
  hI : Rest s.i
  np : NP s.n.latest s.n s.toI
  nz : Noise (Free s.n) s.i (inProc s.n ++ s.toN)
  bud : nskip s.n + (inProc s.n ++ s.toN).length + budget s.i ≤ 2

structure Bob (s : Sys) : Prop where
  ver : s.i.latest = s.n.latest
  mN : s.n.most = s.n.latest
  old : s.i.oldest = s.n.oldest
  cN : ∀ k, k ≠ s.n.latest + 1 → s.n.cons k = none
  rm : s.n.rmeta = s.n.latest
  rmI : s.i.rmeta = s.n.latest
  toI : s.toI = []
  an : ∃ c, Out s.n.latest c s.n ∧ Answering s.n.latest c s.i
  nz : Noise False s.i (inProc s.n ++ s.toN)
  bud : s.n.skipped + (inProc s.n ++ s.toN).length + budget s.i ≤ 2

structure Ans (s : Sys) : Prop where
  ver : s.i.latest = s.n.latest
  mN : s.n.most = s.n.latest
  old : s.i.oldest = s.n.oldest
  cN : ∀ k, k ≠ s.n.latest + 1 → s.n.cons k = none
  rm : s.n.rmeta = s.n.latest
  toI : s.toI = []
  an : ∃ c b x y, Out s.n.latest c s.n ∧ Answered s.n.latest c b s.i ∧
    s.toN = x ++ .bobToAlice c b s.n.latest :: y ∧
    Noise False s.i (inProc s.n ++ (x ++ y)) ∧
    s.n.skipped + (inProc s.n ++ (x ++ y)).length + budget s.i ≤ 2

structure Lead (maxR : Nat) (s : Sys) : Prop where
  ver : s.i.latest = s.n.latest
  cN : ∀ k, k ≠ s.n.latest + 1 → s.n.cons k = none
  rm : s.n.rmeta = s.n.latest
  toI : s.toI = []
  tk : Taken s.n.latest s.n
  an : ∃ c b, Answered s.n.latest c b s.i ∧ Leading maxR s.n.latest c b s.n s.i
  nz : Noise False s.i s.toN
  bud : s.n.skipped + s.toN.length + budget s.i ≤ 2

structure Fwd (maxR : Nat) (s : Sys) : Prop where
  ver : s.i.latest = s.n.latest
  cN : ∀ k, k ≠ s.n.latest + 1 → s.n.cons k = none
  rm : s.n.rmeta = s.n.latest
  tk : Taken s.n.latest s.n
  bN : s.n.b = .recv
  mN : s.n.most = s.n.latest + 1
  an : ∃ c b, Answered s.n.latest c b s.i
  fw : Forward maxR s.n.latest s.n s.i s.toI
  nz : Noise False s.i s.toN
  bud : s.n.skipped + s.toN.length + budget s.i ≤ 2

/-- A proposal that has missed its round but is not yet sent. -/
def pending (x : EP) : Nat :=
  match x.t with
  | .send _ => 1
  | _ => 0

structure Ack (s : Sys) : Prop where
  ver : s.i.latest = s.n.latest + 1
  mI : s.i.most = s.n.latest + 1
  mN : s.n.most = s.n.latest + 1
  old : s.i.oldest = s.n.oldest
  cN : ∀ k, k ≠ s.n.latest + 1 → s.n.cons k = none
  rm : s.n.rmeta = s.n.latest
  tk : Taken s.n.latest s.n
  bN : s.n.b = .recv
  bI : s.i.b = .lSend
  rI : s.i.role = .loser
  toI : s.toI = []
  nz : Noise True s.i s.toN
  bud : s.n.skipped + s.toN.length + pending s.i ≤ 2

structure Cf (s : Sys) : Prop where
  ver : s.i.latest = s.n.latest + 1
  mI : s.i.most = s.n.latest + 1
  mN : s.n.most = s.n.latest + 1
  old : s.i.oldest = s.n.oldest
  cN : ∀ k, k ≠ s.n.latest + 1 → s.n.cons k = none
  rm : s.n.rmeta = s.n.latest
  tk : Taken s.n.latest s.n
  bN : s.n.b = .recv
  hI : Rest s.i
  toI : s.toI = []
  an : ∃ x y, s.toN = x ++ .leaderCanFinish (s.n.latest + 1) :: y ∧ Old (s.n.latest + 1) x ∧
    Noise True s.i (x ++ y) ∧ s.n.skipped + x.length ≤ 2 ∧ y.length + budget s.i ≤ 2

/-! ### The initiator drives -/

/-- The initiator's proposal for `v + 1` has been taken up. -/
structure IBase (s : Sys) : Prop where
  ht : s.i.t = .idle
  hd : s.i.declared = s.i.latest + 1
  cI : ∀ k, k ≠ s.i.latest + 1 → s.i.cons k = none
  cN : ∀ k, s.n.cons k = none
  tN : s.n.t = .idle

structure IBob (s : Sys) : Prop where
  base : IBase s
  ver : s.n.latest = s.i.latest
  mI : s.i.most = s.i.latest
  old : s.i.oldest = s.n.oldest
  rmN : s.n.rmeta = s.i.latest
  gN : s.n.tog = true
  dN : s.n.declared = s.i.latest
  toI : s.toI = []
  toN : s.toN = []
  bI : s.i.b = .recv
  rI : s.i.role = .idle
  an : ∃ c, s.i.cons (s.i.latest + 1) = some c ∧ Answering s.i.latest c s.n ∧ s.n.b ≠ .bToggle c

structure IAns (s : Sys) : Prop where
  base : IBase s
  ver : s.n.latest = s.i.latest
  mI : s.i.most = s.i.latest
  old : s.i.oldest = s.n.oldest
  dN : s.n.declared = s.i.latest
  toN : s.toN = []
  bI : s.i.b = .recv
  rI : s.i.role = .idle
  an : ∃ c b, s.i.cons (s.i.latest + 1) = some c ∧ Answered s.i.latest c b s.n ∧
    s.toI = [.bobToAlice c b s.i.latest]

structure ILead (maxR : Nat) (s : Sys) : Prop where
  base : IBase s
  ver : s.n.latest = s.i.latest
  dN : s.n.declared = s.i.latest
  toI : s.toI = []
  toN : s.toN = []
  tk : Taken s.i.latest s.i
  an : ∃ c b, Answered s.i.latest c b s.n ∧ Leading maxR s.i.latest c b s.i s.n

structure IFwd (maxR : Nat) (s : Sys) : Prop where
  base : IBase s
  ver : s.n.latest = s.i.latest
  dN : s.n.declared = s.i.latest
  toI : s.toI = []
  tk : Taken s.i.latest s.i
  bI : s.i.b = .recv
  mI : s.i.most = s.i.latest + 1
  an : ∃ c b, Answered s.i.latest c b s.n
  fw : Forward maxR s.i.latest s.i s.n s.toN

structure IAck (s : Sys) : Prop where
  base : IBase s
  ver : s.n.latest = s.i.latest + 1
  mI : s.i.most = s.i.latest + 1
  mN : s.n.most = s.i.latest + 1
  old : s.i.oldest = s.n.oldest
  dN : s.n.declared = s.n.latest
  toI : s.toI = []
  toN : s.toN = []
  tk : Taken s.i.latest s.i
  bI : s.i.b = .recv
  bN : s.n.b = .lSend
  rN : s.n.role = .loser

structure ICf (s : Sys) : Prop where
  ht : s.i.t = .idle
  hd : s.i.declared = s.i.latest + 1
  cI : ∀ k, k ≠ s.i.latest + 1 → s.i.cons k = none
  cN : ∀ k, k ≠ s.n.latest + 1 → s.n.cons k = none
  ver : s.n.latest = s.i.latest + 1
  mI : s.i.most = s.i.latest + 1
  mN : s.n.most = s.i.latest + 1
  old : s.i.oldest = s.n.oldest
  toN : s.toN = []
  tk : Taken s.i.latest s.i
  bI : s.i.b = .recv
  hN : Rest s.n
  sk : s.n.b = .recv → s.n.skipped = 0
  an : ∃ l, s.toI = .leaderCanFinish s.n.latest :: l ∧ NP s.n.latest s.n l

/-- The stages. -/
inductive Stage (maxR : Nat) (s : Sys) : Prop where
  | quiet (h : Quiet s)
  | bob (h : Bob s)
  | ans (h : Ans s)
  | lead (h : Lead maxR s)
  | fwd (h : Fwd maxR s)
  | ack (h : Ack s)
  | cf (h : Cf s)
  | ibob (h : IBob s)
  | ians (h : IAns s)
  | ilead (h : ILead maxR s)
  | ifwd (h : IFwd maxR s)
  | iack (h : IAck s)
  | icf (h : ICf s)

/-- The invariant of the cooperative scheduler. -/
structure Inv (maxR : Nat) (s : Sys) : Prop where
  win : Win s.i s.n
  stage : Stage maxR s

end Verif.Rekey

import Verif.NetRwLock.Spec
import Verif.NetRwLock.Explore

/-
Finitely many shapes of the states of the lock: request times are reduced to who wins a conflict, numbers of readers to
zero or not zero, values to "is the value most recently written".
-/
namespace Verif.NetRwLock

inductive ASt where
  | idle
  | active (want hold : Kind)
  | losing (want hold : Kind)
  | lent (hold : Kind) (n : Bool)
  | writing
  | reading
  | misRead
  | misWrite (n : Bool)
  | dropping (hold : Kind) (adj : Bool) (store : Option Bool)
  | dropYield (hold : Kind) (store : Option Bool)
  | leaked
deriving DecidableEq, Repr

/-- `cur`: the request is the last one of its sender; `fresh`: the value is the one most recently written. -/
inductive AMsg where
  | tryAcquire (k : Kind) (cur : Bool)
  | releasedWrite (fresh : Bool)
  | releasedRead
  | lockAcquired
  | releasedVerified
deriving DecidableEq, Repr

/-- `bit`: endpoint `a` wins a conflict of the last requests; `fa`, `fb`: the value of the endpoint is the one most
recently written. -/
structure Shape where
  a : ASt
  b : ASt
  toA : List AMsg
  toB : List AMsg
  bit : Bool
  fa : Bool
  fb : Bool
deriving DecidableEq, Repr

def nz : Nat → Bool
  | 0 => false
  | _ + 1 => true

def absSt : St → ASt
  | .idle => .idle
  | .active w h _ => .active w h
  | .losing w h _ => .losing w h
  | .lent h n => .lent h (nz n)
  | .writing => .writing
  | .reading _ => .reading
  | .misRead => .misRead
  | .misWrite n => .misWrite (nz n)
  | .dropping h j s => .dropping h j (s.map nz)
  | .dropYield h s => .dropYield h (s.map nz)
  | .leaked => .leaked

/-- Side of a shape: the endpoint, its freshness, that of the other, `bit` seen from here, inbox and outbox. -/
structure Side where
  st : ASt
  fx : Bool
  fy : Bool
  bit : Bool
  inbox : List AMsg
  outbox : List AMsg
deriving DecidableEq, Repr

def oldRequest : AMsg → AMsg
  | .tryAcquire k _ => .tryAcquire k false
  | m => m

def oldValue : AMsg → AMsg
  | .releasedWrite _ => .releasedWrite false
  | m => m

def aRelease (hold : Kind) (fx : Bool) : AMsg :=
  match hold with
  | .read => .releasedRead
  | .write => .releasedWrite fx

def aGranted (want hold : Kind) : ASt :=
  match want, hold with
  | .read, .read => .reading
  | .read, .write => .misRead
  | .write, .write => .writing
  | .write, .read => .misWrite false

def aLeftIn (store : Option Bool) : ASt :=
  match store with
  | none => .idle
  | some false => .leaked
  | some true => .reading

def aRequest (x : Side) (k : Kind) : List Side :=
  let req : List Side := [true, false].map fun b =>
    { x with st := .active k k, bit := b, outbox := x.outbox.map oldRequest ++ [.tryAcquire k true] }
  match k, x.st with
  | .read, .lent .read _ => [{ x with st := .lent .read true }]
  | .read, .misWrite _ => [{ x with st := .misWrite true }]
  | .read, .dropping hold adj (some _) => [{ x with st := .dropping hold adj (some true) }]
  | .read, .dropYield hold (some _) => [{ x with st := .dropYield hold (some true) }]
  | .read, .idle => req
  | .write, .idle => req
  | _, _ => []

def aReleaseRead (x : Side) : List Side :=
  match x.st with
  | .reading => [{ x with st := .dropping .read false none, outbox := x.outbox ++ [.releasedRead] }]
  | .lent .read true => [{ x with st := .lent .read false }]
  | .misWrite true => [{ x with st := .misWrite false }]
  | .dropping hold adj (some true) => [{ x with st := .dropping hold adj (some false) }]
  | .dropYield hold (some true) => [{ x with st := .dropYield hold (some false) }]
  | .misRead => [{ x with st := .idle }]
  | _ => []

def aReleaseWrite (x : Side) : List Side :=
  match x.st with
  | .writing => [{ x with st := .dropping .write false none, outbox := x.outbox ++ [.releasedWrite x.fx] }]
  | .misWrite n => [{ x with st := .dropping .read false (some n), outbox := x.outbox ++ [.releasedRead] }]
  | _ => []

def aWrite (x : Side) : List Side :=
  match x.st with
  | .writing =>
    [{ x with fx := true, fy := false, inbox := x.inbox.map oldValue, outbox := x.outbox.map oldValue }]
  | .misWrite _ => aReleaseWrite x
  | _ => []

def aAfterYield : ASt → ASt
  | .lent _ false => .idle
  | .lent _ true => .reading
  | .losing want hold => .active want hold
  | .dropYield _ store => aLeftIn store
  | s => s

/-- Reception; `x` without the packet `m` received. -/
def aRecv (x : Side) (m : AMsg) : List Side :=
  let yielding (hold : Kind) : List Side :=
    match m, hold with
    | .releasedWrite f, .write => [{ x with st := aAfterYield x.st, fx := f, outbox := x.outbox ++ [.releasedVerified] }]
    | .releasedRead, .read => [{ x with st := aAfterYield x.st, outbox := x.outbox ++ [.releasedVerified] }]
    | _, _ => [x]
  match x.st with
  | .idle =>
    match m with
    | .tryAcquire k _ => [{ x with st := .lent k false, outbox := x.outbox ++ [aRelease k x.fx] }]
    | _ => [x]
  | .active want hold =>
    match m with
    | .releasedWrite f =>
      [{ x with st := aGranted want hold, fx := f, outbox := x.outbox ++ [.releasedVerified, .lockAcquired] }]
    | .releasedRead => [{ x with st := aGranted want hold, outbox := x.outbox ++ [.releasedVerified, .lockAcquired] }]
    | .tryAcquire k cur =>
      let win : Side := { x with st := aGranted want hold, outbox := x.outbox ++ [.lockAcquired] }
      let lose : Side := { x with st := .losing want k, outbox := x.outbox ++ [aRelease k x.fx] }
      match k, hold with
      | .read, .read => [{ x with st := aGranted want hold, outbox := x.outbox ++ [.releasedRead] }]
      | _, _ => if cur then (if x.bit then [win] else [lose]) else [win, lose]
    | _ => [x]
  | .losing _ hold => yielding hold
  | .lent hold _ => yielding hold
  | .dropYield hold _ => yielding hold
  | .dropping hold adj store =>
    match m with
    | .releasedRead => [{ x with outbox := x.outbox ++ (match hold with | .read => [.releasedVerified] | .write => []) }]
    | .releasedVerified =>
      if adj then [{ x with st := .dropYield hold store, outbox := x.outbox ++ [aRelease hold x.fx] }]
      else [{ x with st := aLeftIn store }]
    | .tryAcquire _ _ => [{ x with st := .dropping hold true store }]
    | _ => [x]
  | _ => []

def aInbox (x : Side) : List Side :=
  match x.inbox with
  | [] => []
  | m :: rest => aRecv { x with inbox := rest } m

def aSteps (x : Side) : List Side :=
  aRequest x .read ++ aRequest x .write ++ aWrite x ++ aReleaseRead x ++ aReleaseWrite x ++ aInbox x

def Shape.sideA (s : Shape) : Side := ⟨s.a, s.fa, s.fb, s.bit, s.toA, s.toB⟩
def Shape.sideB (s : Shape) : Side := ⟨s.b, s.fb, s.fa, !s.bit, s.toB, s.toA⟩
def Shape.withA (s : Shape) (x : Side) : Shape := ⟨x.st, s.b, x.inbox, x.outbox, x.bit, x.fx, x.fy⟩
def Shape.withB (s : Shape) (x : Side) : Shape := ⟨s.a, x.st, x.outbox, x.inbox, !x.bit, x.fy, x.fx⟩

def shapeSteps (ok : Shape → Bool) (s : Shape) : List Shape :=
  ((aSteps s.sideA).map s.withA ++ (aSteps s.sideB).map s.withB).filter ok

/-! ### Encoding -/

def bit (b : Bool) : Nat := match b with | true => 1 | false => 0
def kindN (k : Kind) : Nat := match k with | .read => 0 | .write => 1
def optN (o : Option Bool) : Nat := match o with | none => 0 | some false => 1 | some true => 2

def encSt : ASt → Nat
  | .idle => 0
  | .active w h => 1 + 2 * kindN w + kindN h
  | .losing w h => 5 + 2 * kindN w + kindN h
  | .lent h n => 9 + 2 * kindN h + bit n
  | .writing => 13
  | .reading => 14
  | .misRead => 15
  | .misWrite n => 16 + bit n
  | .leaked => 18
  | .dropping h j s => 19 + 6 * kindN h + 3 * bit j + optN s
  | .dropYield h s => 31 + 3 * kindN h + optN s

def allSt : List ASt :=
  [.idle, .active .read .read, .active .read .write, .active .write .read, .active .write .write,
   .losing .read .read, .losing .read .write, .losing .write .read, .losing .write .write,
   .lent .read false, .lent .read true, .lent .write false, .lent .write true,
   .writing, .reading, .misRead, .misWrite false, .misWrite true, .leaked,
   .dropping .read false none, .dropping .read false (some false), .dropping .read false (some true),
   .dropping .read true none, .dropping .read true (some false), .dropping .read true (some true),
   .dropping .write false none, .dropping .write false (some false), .dropping .write false (some true),
   .dropping .write true none, .dropping .write true (some false), .dropping .write true (some true),
   .dropYield .read none, .dropYield .read (some false), .dropYield .read (some true),
   .dropYield .write none, .dropYield .write (some false), .dropYield .write (some true)]

def encMsg : AMsg → Nat
  | .tryAcquire k c => 1 + 2 * kindN k + bit c
  | .releasedWrite f => 5 + bit f
  | .releasedRead => 7
  | .lockAcquired => 8
  | .releasedVerified => 9

def allMsg : List AMsg :=
  [.lockAcquired, .tryAcquire .read false, .tryAcquire .read true, .tryAcquire .write false, .tryAcquire .write true,
   .releasedWrite false, .releasedWrite true, .releasedRead, .lockAcquired, .releasedVerified]

def encMsgs : List AMsg → Nat
  | [] => 0
  | m :: r => encMsgs r * 16 + encMsg m

/-- Up to `n` packets. -/
def decMsgs : Nat → Nat → List AMsg
  | 0, _ => []
  | n + 1, c => if Nat.beq c 0 then [] else allMsg.getD (c % 16) .lockAcquired :: decMsgs n (c / 16)

def encShape (s : Shape) : Nat :=
  ((((((encMsgs s.toA * 16777216 + encMsgs s.toB) * 2 + bit s.bit) * 2 + bit s.fa) * 2 + bit s.fb) * 64 + encSt s.a) * 64
    + encSt s.b)

def decShape (c : Nat) : Shape where
  b := allSt.getD (c % 64) .idle
  a := allSt.getD (c / 64 % 64) .idle
  fb := Nat.beq (c / 4096 % 2) 1
  fa := Nat.beq (c / 8192 % 2) 1
  bit := Nat.beq (c / 16384 % 2) 1
  toB := decMsgs 6 (c / 32768 % 16777216)
  toA := decMsgs 6 (c / 32768 / 16777216)

def initShape (b : Bool) : Shape := ⟨.idle, .idle, [], [], b, true, true⟩

def ASt.writer : ASt → Bool
  | .writing => true
  | .misWrite _ => true
  | _ => false

def ASt.reader : ASt → Bool
  | .reading => true
  | .misRead => true
  | .lent _ n => n
  | .misWrite n => n
  | .dropping _ _ s => s.getD false
  | .dropYield _ s => s.getD false
  | _ => false

def ASt.wants : ASt → Option Kind
  | .active w _ => some w
  | .losing w _ => some w
  | _ => none

def ASt.wrong : ASt → Bool
  | .misRead => true
  | .misWrite _ => true
  | _ => false

def ASt.holds (s : ASt) : Bool := s.writer || s.reader

/-- Exclusion, latest values, no guard over the wrong holder. -/
def Shape.good (s : Shape) : Bool :=
  !(s.a.writer && s.b.holds) && !(s.b.writer && s.a.holds) && (!s.a.holds || s.fa) && (!s.b.holds || s.fb) &&
    !s.a.wrong && !s.b.wrong

def Shape.sameKind (s : Shape) : Bool :=
  match s.a.wants, s.b.wants with
  | some k, some k' => decide (k = k')
  | _, _ => true

def Shape.onlyReads (s : Shape) : Bool :=
  match s.a.wants, s.b.wants with
  | some k, some k' => decide (k = .read) && decide (k' = .read)
  | _, _ => true

def ASt.shared : ASt → Bool
  | .lent _ n => n
  | _ => false

def Shape.mild (s : Shape) : Bool := s.onlyReads && !s.a.shared && !s.b.shared

/-- Without guards and packets both endpoints are idle. -/
def Shape.restful (s : Shape) : Bool :=
  s.a.holds || s.b.holds || !s.toA.isEmpty || !s.toB.isEmpty || (decide (s.a = .idle) && decide (s.b = .idle))

def Shape.unheld (s : Shape) : Bool := !s.a.holds && !s.b.holds

end Verif.NetRwLock

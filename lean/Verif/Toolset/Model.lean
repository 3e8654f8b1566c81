/-
Model of the ratchet store.
Source: /repo/citadel_crypt/src/toolset.rs lines 38-286.

A `u32` version is a `BitVec 32` (its arithmetic wraps, as `wrapping_add`/`wrapping_sub` do).
A ratchet is its cid, its version and an opaque body standing for the key material.
`VecDeque` front = head of the list. Logging is left out; note that the log line of `update_from` line 140
computes `latest_hr_version + 1` without wrapping, which in a debug build with error logging on panics when the
newest version is `u32::MAX`. The capacity is a parameter: `MAX_RATCHETS_IN_MEMORY` is 6 or 32 (lines 38-41).
-/
namespace Verif.Toolset

/-- What the toolset sees of a ratchet (`Ratchet::get_cid`, `Ratchet::version`). -/
structure Ratchet (β : Type) where
  cid : Nat
  version : BitVec 32
  body : β
deriving DecidableEq, Repr

/-- `Toolset<R>`, lines 48-66. -/
structure Toolset (β : Type) where
  cid : Nat
  mostRecent : BitVec 32
  oldest : BitVec 32
  map : List (Ratchet β)
  staticAux : Ratchet β
deriving DecidableEq, Repr

/-- `ToolsetUpdateStatus`, lines 81-93. -/
inductive UpdateStatus where
  | committed (newVersion : BitVec 32)
  | committedNeedsSynchronization (newVersion oldestVersion : BitVec 32)
deriving DecidableEq, Repr

variable {β : Type}

/-- `Toolset::new`, lines 97-107. -/
def new (cid : Nat) (r : Ratchet β) : Toolset β :=
  { cid := cid, mostRecent := 0, oldest := 0, map := [r], staticAux := r }

/-- `From<(R, R)>`, lines 272-286. -/
def ofPair (aux r : Ratchet β) : Toolset β :=
  { cid := aux.cid, mostRecent := r.version, oldest := r.version, map := [r], staticAux := aux }

/-- `append_ratchet`, lines 159-172. -/
def appendRatchet (maxR : Nat) (t : Toolset β) (r : Ratchet β) : Toolset β × UpdateStatus :=
  let t' := { t with map := r :: t.map }
  if t'.map.length ≥ maxR then
    (t', .committedNeedsSynchronization r.version t'.oldest)
  else
    (t', .committed r.version)

/-- The `new_version` of either status, lines 145-150. -/
def UpdateStatus.newVersion : UpdateStatus → BitVec 32
  | .committed v => v
  | .committedNeedsSynchronization v _ => v

/-- `update_from`, lines 127-153. -/
def updateFrom (maxR : Nat) (t : Toolset β) (r : Ratchet β) : Toolset β × Option UpdateStatus :=
  if r.cid ≠ t.cid then (t, none)
  else if t.mostRecent ≠ r.version - 1 then (t, none)
  else
    let res := appendRatchet maxR t r
    ({ res.1 with mostRecent := res.2.newVersion }, some res.2)

/-- The errors of `deregister_oldest_ratchet`. -/
inductive DeregError where
  | notMaxed
  | versionMismatch
  | outOfBounds
deriving DecidableEq, Repr

/-- `deregister_oldest_ratchet`, lines 180-202. -/
def deregisterOldest (maxR : Nat) (t : Toolset β) (version : BitVec 32) :
    Toolset β × Except DeregError Unit :=
  if t.map.length < maxR then (t, .error .notMaxed)
  else if t.oldest ≠ version then (t, .error .versionMismatch)
  else if t.map = [] then (t, .error .outOfBounds)
  else ({ t with map := t.map.dropLast, oldest := t.oldest + 1 }, .ok ())

/-- `get_adjusted_index`, lines 245-248. -/
def adjustedIndex (t : Toolset β) (version : BitVec 32) : Nat := (t.mostRecent - version).toNat

/-- `get_ratchet`, lines 251-260. -/
def getRatchet (t : Toolset β) (version : BitVec 32) : Option (Ratchet β) :=
  t.map[adjustedIndex t version]?

/-- `get_most_recent_ratchet`, line 211. -/
def getMostRecent (t : Toolset β) : Option (Ratchet β) := t.map.head?

/-- `get_oldest_ratchet`, line 216. -/
def getOldest (t : Toolset β) : Option (Ratchet β) := t.map.getLast?

/-- Calls that change a toolset. -/
inductive Op (β : Type) where
  | update (r : Ratchet β)
  | deregister (v : BitVec 32)
deriving DecidableEq, Repr

/-- What the caller learns from a call. -/
inductive Event (β : Type) where
  | committed (r : Ratchet β) (status : UpdateStatus)
  | updateRefused (r : Ratchet β)
  | dropped (v : BitVec 32)
  | dropRefused (v : BitVec 32)
deriving DecidableEq, Repr

/-- One call. -/
def step (maxR : Nat) (t : Toolset β) : Op β → Toolset β × Event β
  | .update r =>
    match updateFrom maxR t r with
    | (t', some s) => (t', .committed r s)
    | (t', none) => (t', .updateRefused r)
  | .deregister v =>
    match deregisterOldest maxR t v with
    | (t', .ok _) => (t', .dropped v)
    | (t', .error _) => (t', .dropRefused v)

/-- A history of calls and its events, oldest first. -/
def run (maxR : Nat) (t : Toolset β) : List (Op β) → Toolset β × List (Event β)
  | [] => (t, [])
  | op :: ops =>
    let r := step maxR t op
    let r' := run maxR r.1 ops
    (r'.1, r.2 :: r'.2)

end Verif.Toolset

import Verif.Common.AssocMap
/-
The stores a node can keep its accounts in: memory, files, an SQL database, Redis. What each operation of
`BackendConnection` does to the stored data, and what the look-ups answer.

Source:
  /repo/citadel_user/src/backend/mod.rs lines 225-392 (`BackendConnection`),
  /repo/citadel_user/src/backend/memory.rs lines 53-425 (`MemoryBackend`),
  /repo/citadel_user/src/client_account.rs lines 340-510 (the lists of peers inside an account),
  /repo/citadel_user/src/backend/file_io_backend.rs lines 30-353, 464-492 (`FileIOBackend`),
  /repo/citadel_user/src/account_loader.rs lines 32-60 (`load_cnac_files`),
  /repo/citadel_user/src/backend/sql_backend.rs lines 142-1104 (`SqlBackend`),
  /repo/citadel_user/src/backend/redis_backend.rs lines 126-831 (`RedisBackend`).

Simplifications:
* Text and byte strings are both lists of characters; an account is stored and read back unchanged (`body` stands for
  everything in it but the fields below, the lists of peers and the byte map).
* The operations are atomic, and the connection to the database does not fail. Errors are not told apart.
* Memory: `register_p2p_as_server` of an account with itself takes the write lock of the account twice and never returns;
  the model gives it the two entries, and the theorems are about different accounts.
* SQL: tables are lists of rows. A query without `ORDER BY` may return the rows in any order, so the answers of queries
  that take the first row or have a `LIMIT` are relations. The database enforces foreign keys (sqlx switches them on for
  SQLite; InnoDB and PostgreSQL always do), and a statement that fails changes nothing. `Any` columns never hold NULL:
  `username` of `peers` is selected from a row whose existence a foreign key guarantees.
* Redis: a key that is used as a hash is never used as a string or set (`C115_redis_keys` shows that keys of different
  kinds differ), so WRONGTYPE errors are left out. An empty hash and an absent key are the same. A Lua script runs until
  its first failing command and keeps what it has written.
-/
namespace Verif.Backends
open Verif

abbrev Cid := UInt64
abbrev Str := List Char

/-- What `ClientNetworkAccount` keeps besides the lists of peers and the byte map. -/
structure Acct where
  cid : Cid
  username : Str
  fullName : Str
  personal : Bool
  body : Str
deriving DecidableEq, Repr

/-- `MutualPeer`; all of them have the parent `HYPERLAN_IDX`. -/
structure Peer where
  cid : Cid
  username : Option Str
deriving DecidableEq, Repr

/-- The arguments that select one value of the byte map. -/
structure Slot where
  session : Cid
  peer : Cid
  key : Str
  sub : Str
deriving DecidableEq, Repr

/-- The operations that change the store. -/
inductive Op where
  | save (a : Acct)
  | delete (c : Cid)
  | purge
  | regServer (c0 c1 : Cid)
  | regClient (s p : Cid) (name : Str)
  | deregServer (c0 c1 : Cid)
  | deregClient (s p : Cid)
  | sync (s : Cid) (ps : List Peer)
  | store (x : Slot) (v : Str)
  | remove (x : Slot)
  | removeAll (s p : Cid) (key : Str)
deriving DecidableEq, Repr

/-- `u64::to_string`. -/
def dec (c : Cid) : Str := Nat.toDigits 10 c.toNat

/-- `u64::from_str` on the texts the stores hold (a leading `+`, which it would accept, is never written). -/
def undec (s : Str) : Option Cid :=
  if s ≠ [] ∧ s.all Char.isDigit = true ∧ Nat.ofDigitChars 10 s 0 < 2 ^ 64 then
    some (UInt64.ofNat (Nat.ofDigitChars 10 s 0))
  else none

/-! ### Memory -/

/-- `byte_map` of an account: peer ↦ key ↦ sub key ↦ value. -/
abbrev ByteMap := AMap Cid (AMap Str (AMap Str Str))

instance : DecidableEq (AMap Str (AMap Str Str)) := inferInstance
instance : DecidableEq ByteMap := @instDecidableEqList _ (@instDecidableEqProd _ _ _ _)

/-- An account in memory. -/
structure Mem where
  acct : Acct
  peers : List Peer
  bytes : ByteMap
deriving DecidableEq, Repr

/-- `MemoryBackend.clients`. -/
abbrev Memory := AMap Cid Mem

namespace Memory

def peersOf (m : Memory) (c : Cid) : List Peer := ((m.get? c).map Mem.peers).getD []

/-- Change the account stored under `c`, if there is one. -/
def modify (m : Memory) (c : Cid) (f : Mem → Mem) : Memory :=
  match m.get? c with
  | some x => m.insert c (f x)
  | none => m

/-- `remove_hyperlan_peer`: client_account.rs lines 494-508; only the first entry goes. -/
def dropPeer (m : Memory) (c p : Cid) : Memory :=
  m.modify c fun x => { x with peers := x.peers.eraseP fun e => e.cid = p }

/-- `hyperlan_peer_exists`: lines 260-268. -/
def peerExists (m : Memory) (s p : Cid) : Bool := (m.peersOf s).any fun e => e.cid = p

/-- `hyperlan_peers_are_mutuals`: lines 270-285, client_account.rs lines 446-464. -/
def areMutuals (m : Memory) (s : Cid) (ps : List Cid) : List Bool :=
  if ps.isEmpty then [] else
  match m.get? s with
  | some x => ps.map fun c => x.peers.any fun e => e.cid = c
  | none => []

/-- `get_hyperlan_peers`: lines 287-302, client_account.rs lines 378-394. -/
def getPeers (m : Memory) (s : Cid) (ps : List Cid) : List Peer :=
  ps.filterMap fun c => (m.peersOf s).find? fun e => e.cid = c

/-- `byte_map.entry(peer).or_default().entry(key).or_default()`. -/
def sub (b : ByteMap) (p : Cid) (key : Str) : AMap Str Str := (((b.get? p).getD []).get? key).getD []

/-- `get_byte_map_value`: lines 325-346. -/
def getByte (m : Memory) (x : Slot) : Option Str :=
  match m.get? x.session with
  | some a => (sub a.bytes x.peer x.key).get? x.sub
  | none => none

/-- `get_byte_map_values_by_key`: lines 393-413. -/
def getBytes (m : Memory) (s p : Cid) (key : Str) : AMap Str Str :=
  match m.get? s with
  | some a => sub a.bytes p key
  | none => []

def setSub (b : ByteMap) (p : Cid) (key : Str) (v : AMap Str Str) : ByteMap :=
  b.insert p (((b.get? p).getD []).insert key v)

/-- The operations; the flag says whether the call answers `Ok`. -/
def step (m : Memory) : Op → Memory × Bool
  -- lines 76-80; the object saved is a new account
  | .save a => (m.insert a.cid ⟨a, [], []⟩, true)
  -- lines 93-110
  | .delete c =>
    if m.contains c then
      ((m.peersOf c).foldl (fun w p => w.dropPeer p.cid c) (m.erase c), true)
    else (m, false)
  -- lines 112-117
  | .purge => ([], true)
  -- lines 151-160; client_account.rs lines 397-428
  | .regServer a b =>
    match m.get? a, m.get? b with
    | some x, some y =>
      let m := m.modify a fun e => { e with peers := e.peers ++ [⟨b, some y.acct.username⟩] }
      (m.modify b fun e => { e with peers := e.peers ++ [⟨a, some x.acct.username⟩] }, true)
    | _, _ => (m, false)
  -- lines 162-175
  | .regClient s p n =>
    if m.contains s then (m.modify s fun e => { e with peers := e.peers ++ [⟨p, some n⟩] }, true) else (m, false)
  -- lines 177-187; client_account.rs lines 433-444
  | .deregServer a b =>
    if m.contains a && m.contains b then
      if m.peerExists a b then
        let m' := m.dropPeer a b
        if m'.peerExists b a then (m'.dropPeer b a, true) else (m', false)
      else (m, false)
    else (m, false)
  -- lines 189-200
  | .deregClient s p => if m.contains s then (m.dropPeer s p, true) else (m, false)
  -- lines 316-323; client_account.rs lines 470-476
  | .sync s ps => (m.modify s fun e => { e with peers := ps }, true)
  -- lines 370-391
  | .store x v =>
    (m.modify x.session fun e =>
      { e with bytes := setSub e.bytes x.peer x.key ((sub e.bytes x.peer x.key).insert x.sub v) }, true)
  -- lines 348-368
  | .remove x =>
    (m.modify x.session fun e =>
      { e with bytes := setSub e.bytes x.peer x.key ((sub e.bytes x.peer x.key).erase x.sub) }, true)
  -- lines 415-434
  | .removeAll s p key =>
    (m.modify s fun e => { e with bytes := e.bytes.insert p (((e.bytes.get? p).getD []).erase key) }, true)

def run (m : Memory) (ops : List Op) : Memory := ops.foldl (fun w o => (w.step o).1) m

end Memory

/-! ### Files -/

/-- `FileIOBackend`: the accounts in memory and the accounts in the files. -/
structure Files where
  mem : Memory
  disk : Memory
deriving DecidableEq, Repr

namespace Files

/-- `save_cnac_by_cid`: lines 465-474 (`save_cnac`, lines 64-73, writes the file of the account). -/
def saveByCid (w : Files) (c : Cid) : Files × Bool :=
  match w.mem.get? c with
  | some x => ({ w with disk := w.disk.insert c x }, true)
  | none => (w, false)

/-- Lines 65-353. -/
def step (w : Files) (o : Op) : Files × Bool :=
  let r := w.mem.step o
  match o with
  | .save a => ({ w with mem := r.1 }.saveByCid a.cid)
  -- lines 87-98: only the file of the account itself is removed
  | .delete c => if r.2 then ({ mem := r.1, disk := w.disk.erase c }, true) else (w, false)
  | .purge => (⟨r.1, []⟩, true)
  | .regServer a b | .deregServer a b =>
    if r.2 then
      let x := ({ w with mem := r.1 } : Files).saveByCid a
      if x.2 then x.1.saveByCid b else x
    else ({ w with mem := r.1 }, false)
  | .regClient s _ _ | .deregClient s _ => if r.2 then { w with mem := r.1 }.saveByCid s else (w, false)
  | .sync s _ => { w with mem := r.1 }.saveByCid s
  | .store x _ | .remove x => { w with mem := r.1 }.saveByCid x.session
  | .removeAll s _ _ => { w with mem := r.1 }.saveByCid s

def run (w : Files) (ops : List Op) : Files := ops.foldl (fun w o => (w.step o).1) w

/-- `connect` of a new process on the same directory: lines 51-59. -/
def restart (w : Files) : Files := { w with mem := w.disk }

end Files

/-! ### SQL -/

/-- `SqlVariant`. -/
inductive Variant where
  | mysql | postgre | sqlite
deriving DecidableEq, Repr

/-- A column that holds a cid: TEXT in SQLite, BIGINT elsewhere. -/
inductive Col where
  | text (s : Str)
  | int (i : Int64)
deriving DecidableEq, Repr

/-- `u64_into_i64`: lines 1102-1104. -/
def u64IntoI64 (x : UInt64) : Int64 := (x - (0xFFFFFFFFFFFFFFFF / 2 + 1)).toInt64

/-- `i64_into_u64`: lines 1098-1100. -/
def i64IntoU64 (x : Int64) : UInt64 := x.toUInt64 + (0xFFFFFFFFFFFFFFFF / 2 + 1)

/-- `gen_query!`: lines 142-154. -/
def bindCid (v : Variant) (c : Cid) : Col :=
  match v with
  | .sqlite => .text (dec c)
  | _ => .int (u64IntoI64 c)

/-- `try_get_cid_from_row`: lines 1084-1096. -/
def readCid : Col → Option Cid
  | .text s => undec s
  | .int i => some (i64IntoU64 i)

structure CnacRow where
  cid : Col
  personal : Bool
  username : Str
  fullName : Str
  bin : Acct
deriving DecidableEq, Repr

structure PeerRow where
  peer : Col
  username : Str
  cid : Col
deriving DecidableEq, Repr

structure ByteRow where
  cid : Col
  peer : Col
  id : Str
  sub : Str
  bin : Str
deriving DecidableEq, Repr

/-- The three tables: lines 184-186. -/
structure Db where
  variant : Variant
  cnacs : List CnacRow
  peers : List PeerRow
  bytes : List ByteRow
deriving DecidableEq, Repr

namespace Db

def enc (d : Db) (c : Cid) : Col := bindCid d.variant c

def empty (v : Variant) : Db := ⟨v, [], [], []⟩

/-- `cid_is_registered`: lines 313-321 (`LIMIT 1`, so there is at most one row). -/
def isRegistered (d : Db) (c : Cid) : Bool := d.cnacs.any fun r => r.cid = d.enc c

/-- The row `save_cnac` writes. -/
def rowOf (d : Db) (a : Acct) : CnacRow := ⟨d.enc a.cid, a.personal, a.username, a.fullName, a⟩

/-- The rows `get_byte_map_value` selects from. -/
def byteRows (d : Db) (x : Slot) : List ByteRow :=
  d.bytes.filter fun r => r.cid = d.enc x.session ∧ r.peer = d.enc x.peer ∧ r.id = x.key ∧ r.sub = x.sub

/-- `get_byte_map_value`: lines 769-794; any of the matching rows may be the first. `store_byte_map_value` and
`remove_byte_map_value` answer with such a value of the table before the change. -/
def GetByte (d : Db) (x : Slot) (r : Option Str) : Prop :=
  (d.byteRows x = [] ∧ r = none) ∨ ∃ row ∈ d.byteRows x, r = some row.bin

/-- `get_byte_map_values_by_key`: lines 864-890: the rows in any order, later ones overwrite earlier ones. -/
def GetBytes (d : Db) (s p : Cid) (key : Str) (r : Str → Option Str) : Prop :=
  ∃ rows : List ByteRow,
    rows.Perm (d.bytes.filter fun r => r.cid = d.enc s ∧ r.peer = d.enc p ∧ r.id = key) ∧
    ∀ k, r k = (rows.foldl (fun (m : AMap Str Str) row => m.insert row.sub row.bin) []).get? k

/-- The rows of `peers` for a session and a peer. -/
def peerRows (d : Db) (s p : Cid) : List PeerRow := d.peers.filter fun r => r.peer = d.enc p ∧ r.cid = d.enc s

/-- `hyperlan_peer_exists`: lines 622-636. -/
def peerExists (d : Db) (s p : Cid) : Bool := (d.peerRows s p).length == 1

/-- `get_hyperlan_peer_by_cid`: lines 594-620. -/
def GetPeer (d : Db) (s p : Cid) (r : Option Peer) : Prop :=
  (d.peerRows s p = [] ∧ r = none) ∨ ∃ row ∈ d.peerRows s p, r = some ⟨p, some row.username⟩

/-- `get_hyperlan_peer_list`: lines 501-521, in any order. -/
def PeerList (d : Db) (s : Cid) (r : Option (List Cid)) : Prop :=
  ∃ rows : List PeerRow, rows.Perm (d.peers.filter fun r => r.cid = d.enc s) ∧
    let l := rows.filterMap fun r => readCid r.peer
    r = if l.isEmpty then none else some l

/-- `LIMIT n` on the rows `l`. -/
def IsLimit (l : List PeerRow) (n : Nat) (rows : List PeerRow) : Prop :=
  ∃ rest, (rows ++ rest).Perm l ∧ rows.length = min n l.length

/-- The equality of the joins of lines 652 and 680. With MySQL a string constant (`ROW('…')`) meets a BIGINT column, so
both are compared as double precision numbers: `close` says which integers are equal then. -/
def joinEq (v : Variant) (close : Int64 → Int64 → Bool) (a b : Col) : Bool :=
  match v, a, b with
  | .mysql, .int i, .int j => close i j
  | _, _, _ => a = b

/-- `input INNER JOIN peers ON input.peer_cid = peers.peer_cid WHERE peers.cid = ?`. -/
def join (d : Db) (close : Int64 → Int64 → Bool) (s : Cid) (ps : List Cid) : List PeerRow :=
  ps.flatMap fun c => d.peers.filter fun r => joinEq d.variant close (d.enc c) r.peer && r.cid = d.enc s

/-- `hyperlan_peers_are_mutuals`: lines 638-664. -/
def AreMutuals (d : Db) (close : Int64 → Int64 → Bool) (s : Cid) (ps : List Cid) (r : List Bool) : Prop :=
  ∃ rows, IsLimit (d.join close s ps) ps.length rows ∧
    r = ps.map fun c => decide (c ∈ rows.filterMap fun r => readCid r.peer)

/-- `get_hyperlan_peers`: lines 666-698. -/
def GetPeers (d : Db) (close : Int64 → Int64 → Bool) (s : Cid) (ps : List Cid) (r : List Peer) : Prop :=
  ∃ rows, IsLimit (d.join close s ps) ps.length rows ∧
    r = rows.filterMap fun r => (readCid r.peer).map fun c => ⟨c, some r.username⟩

/-- `INSERT INTO peers`; the foreign key of `cid` must hold. -/
def insertPeer (d : Db) (s p : Cid) (n : Str) : Db := { d with peers := d.peers ++ [⟨d.enc p, n, d.enc s⟩] }

/-- `SELECT username FROM cnacs WHERE cid = ?`. -/
def usernameOf (d : Db) (c : Cid) : Option Str := (d.cnacs.find? fun r => r.cid = d.enc c).map CnacRow.username

def step (d : Db) : Op → Db × Bool
  -- lines 247-298
  | .save a =>
    if d.isRegistered a.cid then
      ({ d with cnacs := d.cnacs.map fun r => if r.cid = d.enc a.cid then d.rowOf a else r }, true)
    else ({ d with cnacs := d.cnacs ++ [d.rowOf a] }, true)
  -- lines 323-336; the foreign keys and the trigger of lines 185-223
  | .delete c =>
    if d.isRegistered c then
      ({ d with
          cnacs := d.cnacs.filter fun r => r.cid ≠ d.enc c
          peers := d.peers.filter fun r => r.cid ≠ d.enc c ∧ r.peer ≠ d.enc c
          bytes := d.bytes.filter fun r => r.cid ≠ d.enc c }, true)
    else (d, false)
  -- lines 338-353
  | .purge => ({ d with cnacs := [], peers := [], bytes := [] }, true)
  -- lines 411-430
  | .regServer c0 c1 =>
    match d.usernameOf c0, d.usernameOf c1 with
    | some n0, some n1 => ((d.insertPeer c1 c0 n0).insertPeer c0 c1 n1, true)
    | _, _ => (d, false)
  -- lines 433-448
  | .regClient s p n => if d.isRegistered s then (d.insertPeer s p n, true) else (d, false)
  -- lines 450-462
  | .deregServer c0 c1 =>
    ({ d with peers := d.peers.filter fun r =>
        ¬ ((r.peer = d.enc c0 ∧ r.cid = d.enc c1) ∨ (r.peer = d.enc c1 ∧ r.cid = d.enc c0)) }, true)
  -- lines 464-499
  | .deregClient s p => ({ d with peers := d.peers.filter fun r => ¬ (r.peer = d.enc p ∧ r.cid = d.enc s) }, true)
  -- lines 731-767; an empty list changes nothing
  | .sync s ps =>
    if ps.isEmpty then (d, true)
    else if d.isRegistered s then
      (ps.foldl (fun d p => d.insertPeer s p.cid (p.username.getD ['N', 'U', 'L', 'L']))
        { d with peers := d.peers.filter fun r => r.cid ≠ d.enc s }, true)
    else (d, false)
  -- lines 825-862: an INSERT, whether or not there is a row
  | .store x v =>
    if d.isRegistered x.session then
      ({ d with bytes := d.bytes ++ [⟨d.enc x.session, d.enc x.peer, x.key, x.sub, v⟩] }, true)
    else (d, false)
  -- lines 796-823
  | .remove x =>
    ({ d with bytes := d.bytes.filter fun r =>
        ¬ (r.cid = d.enc x.session ∧ r.peer = d.enc x.peer ∧ r.id = x.key ∧ r.sub = x.sub) }, true)
  -- lines 892-911
  | .removeAll s p key =>
    ({ d with bytes := d.bytes.filter fun r => ¬ (r.cid = d.enc s ∧ r.peer = d.enc p ∧ r.id = key) }, true)

def run (d : Db) (ops : List Op) : Db := ops.foldl (fun d o => (d.step o).1) d

end Db

/-! ### Redis -/

/-- A value of the key space. -/
inductive RVal where
  | str (s : Str)
  | hash (m : AMap Str Str)
  | set (l : List Str)
deriving DecidableEq, Repr

/-- The key space. The accounts in the hash `clients` are kept in `cnacs`, as the model does not serialize them. -/
structure Redis where
  cnacs : AMap Str Acct
  keys : AMap Str RVal
deriving DecidableEq, Repr

/-- Lines 792-799. -/
def usernamePrefix : Str := "username.local".toList
def cnacKey : Str := "clients".toList
def cidToUsername : Str := "cid.to.username.local".toList
def peerCidPrefix : Str := "peers_for.cid".toList
def peerUsernamePrefix : Str := "peers_for.username".toList
def byteMapPrefix : Str := "byte_map".toList
def impersonalKey : Str := "clients.impersonals".toList
def personalKey : Str := "clients.personals".toList

/-- Lines 801-831. -/
def usernameKey (u : Str) : Str := usernamePrefix ++ '.' :: u
def cidToUsernameKey (c : Cid) : Str := cidToUsername ++ '.' :: dec c
def peerCidKey (c : Cid) : Str := peerCidPrefix ++ '.' :: dec c
def peerUsernameKey (c : Cid) : Str := peerUsernamePrefix ++ '.' :: dec c
def byteMapKey (s p : Cid) (key : Str) : Str := byteMapPrefix ++ '.' :: (dec s ++ '.' :: (dec p ++ '.' :: key))

namespace Redis

def empty : Redis := ⟨[], []⟩

def hash (r : Redis) (k : Str) : AMap Str Str :=
  match r.keys.get? k with
  | some (.hash m) => m
  | _ => []

def get (r : Redis) (k : Str) : Option Str :=
  match r.keys.get? k with
  | some (.str s) => some s
  | _ => none

def members (r : Redis) (k : Str) : List Str :=
  match r.keys.get? k with
  | some (.set l) => l
  | _ => []

def put (r : Redis) (k : Str) (v : RVal) : Redis := { r with keys := r.keys.insert k v }
def set (r : Redis) (k v : Str) : Redis := r.put k (.str v)
def del (r : Redis) (k : Str) : Redis := { r with keys := r.keys.erase k }
def hget (r : Redis) (k f : Str) : Option Str := (r.hash k).get? f
def hexists (r : Redis) (k f : Str) : Bool := (r.hash k).contains f
def hset (r : Redis) (k f v : Str) : Redis := r.put k (.hash ((r.hash k).insert f v))
def hdel (r : Redis) (k f : Str) : Redis := r.put k (.hash ((r.hash k).erase f))
def sadd (r : Redis) (k v : Str) : Redis := r.put k (.set (if v ∈ r.members k then r.members k else v :: r.members k))
def srem (r : Redis) (k v : Str) : Redis := r.put k (.set ((r.members k).filter (· ≠ v)))
/-- `hvals`. -/
def hvals (r : Redis) (k : Str) : List Str := (r.hash k).map Prod.snd
/-- `hkeys`. -/
def hkeys (r : Redis) (k : Str) : List Str := (r.hash k).map Prod.fst

/-- `cid_is_registered`: lines 219-225. -/
def isRegistered (r : Redis) (c : Cid) : Bool := r.cnacs.contains (dec c)

/-- `get_username_by_cid`: lines 290-292. -/
def usernameOf (r : Redis) (c : Cid) : Option Str := r.get (cidToUsernameKey c)

/-- `hyperlan_peer_exists`: lines 475-485. -/
def peerExists (r : Redis) (s p : Cid) : Bool := r.hexists (peerUsernameKey s) (dec p)

/-- `get_hyperlan_peer_by_cid`: lines 456-473. -/
def getPeer (r : Redis) (s p : Cid) : Option Peer :=
  (r.hget (peerUsernameKey s) (dec p)).map fun n => ⟨p, some n⟩

/-- `get_hyperlan_peer_list`: lines 400-410; `none` is a field that is not a cid, an error. -/
def peerList (r : Redis) (s : Cid) : Option (List Cid) := (r.hkeys (peerUsernameKey s)).mapM undec

/-- `hyperlan_peers_are_mutuals`: lines 487-518. -/
def areMutuals (r : Redis) (s : Cid) (ps : List Cid) : List Bool := ps.map fun c => r.peerExists s c

/-- `get_hyperlan_peers`: lines 520-561; `none` is an error: the script answers with a nil for a cid that is not a peer,
which is not a `String`. -/
def getPeers (r : Redis) (s : Cid) (ps : List Cid) : Option (List Peer) :=
  (ps.mapM fun c => r.hget (peerUsernameKey s) (dec c)).map fun l =>
    (l.zip ps).map fun e => ⟨e.2, some e.1⟩

/-- `get_byte_map_value`: lines 622-634. -/
def getByte (r : Redis) (x : Slot) : Option Str := r.hget (byteMapKey x.session x.peer x.key) x.sub

/-- `get_byte_map_values_by_key`: lines 684-695. -/
def getBytes (r : Redis) (s p : Cid) (key : Str) : AMap Str Str := r.hash (byteMapKey s p key)

/-- `save_cnac`: lines 185-210. -/
def saveCnac (r : Redis) (a : Acct) : Redis :=
  let r := r.set (usernameKey a.username) (dec a.cid)
  let r := { r with cnacs := r.cnacs.insert (dec a.cid) a }
  let r := r.set (cidToUsernameKey a.cid) a.username
  r.sadd (if a.personal then personalKey else impersonalKey) (dec a.cid)

/-- The end of the script of `delete_cnac_by_cid`: the entries of the account at its peers. -/
def dropAtPeers (u c : Str) (r : Redis) (peers : List Str) : Redis :=
  peers.foldl (fun r p =>
    (r.hdel (peerCidPrefix ++ '.' :: p) u).hdel (peerUsernamePrefix ++ '.' :: p) c) r

/-- `delete_cnac_by_cid`: lines 227-262. An account without a name makes the second line of the script fail. -/
def deleteCnac (r : Redis) (c : Cid) : Redis × Bool :=
  match r.get (cidToUsernameKey c) with
  | none => (r, false)
  | some u =>
    let peers := r.hvals (peerCidKey c)
    let r := r.del (usernameKey u)
    let r := r.del (peerUsernameKey c)
    let r := { r with cnacs := r.cnacs.erase (dec c) }
    let r := r.del (peerCidKey c)
    let r := r.del (cidToUsernameKey c)
    let r := r.srem personalKey (dec c)
    let r := r.srem impersonalKey (dec c)
    (dropAtPeers u (dec c) r peers, true)

/-- `register_p2p_as_server`: lines 301-324. A missing name makes the command that uses it fail. -/
def regServer (r : Redis) (c0 c1 : Cid) : Redis × Bool :=
  let n1 := r.get (cidToUsernameKey c0)
  let n2 := r.get (cidToUsernameKey c1)
  match n2 with
  | none => (r, false)
  | some n2 =>
    let r := r.hset (peerUsernameKey c0) (dec c1) n2
    match n1 with
    | none => (r, false)
    | some n1 =>
      let r := r.hset (peerUsernameKey c1) (dec c0) n1
      let r := r.hset (peerCidKey c0) n2 (dec c1)
      (r.hset (peerCidKey c1) n1 (dec c0), true)

/-- `deregister_p2p_as_server`: lines 344-368. -/
def deregServer (r : Redis) (c0 c1 : Cid) : Redis × Bool :=
  let n1 := r.get (cidToUsernameKey c0)
  let n2 := r.get (cidToUsernameKey c1)
  match n2 with
  | none => (r, false)
  | some n2 =>
    let r := r.hdel (peerCidKey c0) n2
    match n1 with
    | none => (r, false)
    | some n1 =>
      let r := r.hdel (peerCidKey c1) n1
      let r := r.hdel (peerUsernameKey c0) (dec c1)
      (r.hdel (peerUsernameKey c1) (dec c0), true)

/-- The body of the loop of `synchronize_hyperlan_peer_list_as_client`: lines 607-612. -/
def addPeer (s : Cid) (r : Redis) (p : Peer) : Redis :=
  match p.username with
  | some n => (r.hset (peerUsernameKey s) (dec p.cid) n).hset (peerCidKey s) n (dec p.cid)
  | none => r

def step (r : Redis) : Op → Redis × Bool
  | .save a => (r.saveCnac a, true)
  | .delete c => r.deleteCnac c
  -- lines 264-275
  | .purge => (empty, true)
  | .regServer a b => r.regServer a b
  -- lines 326-342
  | .regClient s p n => ((r.hset (peerUsernameKey s) (dec p) n).hset (peerCidKey s) n (dec p), true)
  | .deregServer a b => r.deregServer a b
  -- lines 370-398
  | .deregClient s p =>
    match r.hget (peerUsernameKey s) (dec p) with
    | none => (r, false)
    | some n => ((r.hdel (peerCidKey s) n).hdel (peerUsernameKey s) (dec p), true)
  -- lines 586-620
  | .sync s ps =>
    (ps.foldl (addPeer s) ((r.del (peerCidKey s)).del (peerUsernameKey s)), true)
  -- lines 659-682
  | .store x v => (r.hset (byteMapKey x.session x.peer x.key) x.sub v, true)
  -- lines 636-657
  | .remove x => (r.hdel (byteMapKey x.session x.peer x.key) x.sub, true)
  -- lines 697-716
  | .removeAll s p key => (r.del (byteMapKey s p key), true)

def run (r : Redis) (ops : List Op) : Redis := ops.foldl (fun r o => (r.step o).1) r

end Redis
end Verif.Backends

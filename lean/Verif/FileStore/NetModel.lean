import Verif.FileStore.Model
/-
Which files the packets of a connection read, write and delete (C90), when a file is written without being asked for
(C92), and whose data ends up in a file (C94).

Source:
  /repo/citadel_proto/src/proto/packet_processor/raw_primary_packet.rs lines 208-300 (`check_proxy`),
  /repo/citadel_proto/src/proto/packet_processor/primary_group_packet.rs lines 121-333 (group packets), 486-540
    (`get_orientation_safe_ratchet`),
  /repo/citadel_proto/src/proto/packet_processor/file_packet.rs lines 56-375 (`process_file_packet`),
  /repo/citadel_proto/src/proto/state_container/inbound_transfer.rs (`on_group_header_received`,
    `on_file_header_received`, `on_group_payload_received`),
  /repo/citadel_user/src/backend/file_io_backend.rs lines 355-462.

Simplifications:
* A packet carries the party whose ratchet it was made with; it is accepted if the receiver picks the ratchet it
  shares with this party (the authenticated encryption of `Verif.Layered`; ratchets of different connections have
  different keys). Versions of ratchets and replays are left out.
* Everything else in a packet, the header in particular, is chosen by its sender.
* The waves of a group are one packet each; the pieces of a group are put together in the order of arrival
  (`Verif.Splitter`, `Verif.Transfer`). Every piece remembers who made it; the code has no such field.
* The backend writes a file at the end of its stream, in one step. The deletion after a pull happens at once.
* Local encryption of the contents is left out.
* The object id 0 is not used for files.
-/
namespace Verif.FileStore

variable {M : Type}

/-- The connection a ratchet belongs to: the one between client and server, or the one with a peer. -/
inductive Who where
  | c2s
  | p2p (peer : Nat)
deriving DecidableEq, Repr

inductive Body (M : Type) where
  /-- `REVFS_PULL`. -/
  | pull (path : Str) (del : Bool)
  /-- `REVFS_DELETE`. -/
  | delete (path : Str)
  /-- `FILE_HEADER` with the metadata of the file. `level` says whether `local_encryption_level` is present. -/
  | header (oid cid : Nat) (kind : Kind) (meta_ : M) (total : Nat) (level : Bool) (ticket : Nat)
  /-- `GROUP_HEADER`. -/
  | ghdr (gid oid waves : Nat)
  /-- `GROUP_PAYLOAD`. -/
  | payload (gid oid : Nat) (data : Bytes)

/-- A packet: `session_cid` and `target_cid` of the header, the party it was made by, and its contents. -/
structure Packet (M : Type) where
  session : Nat
  target : Nat
  by_ : Who
  body : Body M

/-- The task spawned by `on_file_header_received`, with the part of `InboundFileTransfer` it needs. -/
structure Task (M : Type) where
  by_ : Who
  oid : Nat
  cid : Nat
  kind : Kind
  meta_ : M
  level : Bool
  ticket : Nat
  /-- What the user decided; a file with `local_encryption_level` counts as accepted. -/
  answer : Option Bool
  /-- The data streamed to the backend. -/
  data : List (Who × Bytes)
  /-- The stream has ended. -/
  closed : Bool
  stored : Bool

/-- The task for a new file: without `local_encryption_level` it waits for the user. -/
def Task.new (w : Who) (oid cid : Nat) (kind : Kind) (m : M) (level : Bool) (ticket : Nat) : Task M where
  by_ := w
  oid := oid
  cid := cid
  kind := kind
  meta_ := m
  level := level
  ticket := ticket
  answer := if level then some true else none
  data := []
  closed := false
  stored := false

/-- An entry of `inbound_files`. -/
structure Entry where
  task : Nat
  total : Nat
deriving DecidableEq, Repr

/-- The part of the state container of a session that belongs to inbound files. -/
structure Session (M : Type) where
  /-- The peers with a ratchet: `active_virtual_connections` and `stale_p2p_ratchets`. -/
  peers : Nat → Bool
  /-- `inbound_files`, by object id. -/
  files : Nat → Option Entry
  /-- `inbound_groups`, by `session_cid`, group id and object id: number of waves and the waves so far. -/
  groups : Nat × Nat × Nat → Option (Nat × List (Who × Bytes))
  tasks : List (Task M)

/-- A node: its file system and its sessions by `session_cid`. A client has one, a server has one per client. -/
structure Host (M : Type) where
  fs : FS
  sess : Nat → Session M

/-- The ratchet the receiver picks: `check_proxy` and `get_orientation_safe_ratchet`. -/
def ratchetFor (sid : Nat) (s : Session M) (p : Packet M) : Option Who :=
  if p.target = 0 then some .c2s
  else if p.target = sid then (if s.peers p.session then some (.p2p p.session) else none)
  else none

/-- The packet is for this node and authentic. -/
def accepts (sid : Nat) (s : Session M) (p : Packet M) : Bool := ratchetFor sid s p = some p.by_

/-- Write the file of a task if it was accepted and its stream has ended. -/
def settle (e : Env M) (fs : FS) (s : Session M) (i : Nat) : FS × Session M :=
  match s.tasks[i]? with
  | none => (fs, s)
  | some t =>
    if t.answer = some true ∧ t.closed = true ∧ t.stored = false then
      ((store e fs t.cid t.kind t.meta_ (t.data.map Prod.snd).flatten).1,
       { s with tasks := s.tasks.set i { t with stored := true } })
    else (fs, s)

/-- Change one task. -/
def Session.modify (s : Session M) (i : Nat) (f : Task M → Task M) : Session M :=
  { s with tasks := s.tasks.modify i f }

/-- Insert or remove one entry. -/
def put {κ α : Type} [DecidableEq κ] (f : κ → Option α) (k : κ) (v : Option α) : κ → Option α :=
  fun x => if x = k then v else f x

/-- What an accepted packet does; the last component is the file sent back. -/
def handle (e : Env M) (fs : FS) (s : Session M) (p : Packet M) : FS × Session M × Option (M × Bytes) :=
  match p.body with
  | .pull path del =>
    let r := lookup e fs p.session path
    match r.2 with
    | none => (r.1, s, none)
    | some f => (if del then deletePulled e r.1 p.session path else r.1, s, some f)
  | .delete path => ((FileStore.delete e fs p.session path).1, s, none)
  | .header oid cid kind m total level ticket =>
    match s.files oid with
    | some _ => (fs, s, none)
    | none =>
      (fs, { s with
        files := put s.files oid (some { task := s.tasks.length, total := total }),
        tasks := s.tasks ++ [Task.new p.by_ oid cid kind m level ticket] }, none)
  | .ghdr gid oid waves =>
    match s.groups (p.session, gid, oid) with
    | some _ => (fs, s, none)
    | none =>
      if (s.files oid).isSome then (fs, { s with groups := put s.groups (p.session, gid, oid) (some (waves, [])) }, none)
      else (fs, s, none)
  | .payload gid oid data =>
    match s.groups (p.session, gid, oid) with
    | none => (fs, s, none)
    | some (waves, got) =>
      let got := got ++ [(p.by_, data)]
      if got.length < waves then (fs, { s with groups := put s.groups (p.session, gid, oid) (some (waves, got)) }, none)
      else
        let s := { s with groups := put s.groups (p.session, gid, oid) none }
        match s.files oid with
        | none => (fs, s, none)
        | some f =>
          let s := s.modify f.task fun t => { t with data := t.data ++ got }
          if gid ≥ f.total - 1 then
            let s := { s with files := put s.files oid none }
            let r := settle e fs (s.modify f.task fun t => { t with closed := true }) f.task
            (r.1, r.2, none)
          else (fs, s, none)

/-- What happens at a node. -/
inductive Event (M : Type) where
  | recv (sid : Nat) (p : Packet M)
  /-- The user accepts or declines a file. -/
  | answer (sid i : Nat) (ok : Bool)
  /-- The user asks for one of their files. -/
  | request (sid ticket : Nat)
  /-- The groups of a file expire. -/
  | expire (sid oid : Nat)

def Host.setS (n : Host M) (sid : Nat) (fs : FS) (s : Session M) : Host M :=
  { fs, sess := fun x => if x = sid then s else n.sess x }

def step (e : Env M) (n : Host M) : Event M → Host M × Option (M × Bytes)
  | .recv sid p =>
    if accepts sid (n.sess sid) p then
      let r := handle e n.fs (n.sess sid) p
      (n.setS sid r.1 r.2.1, r.2.2)
    else (n, none)
  | .answer sid i ok =>
    let s := n.sess sid
    match s.tasks[i]? with
    | none => (n, none)
    | some t =>
      if t.answer = none then
        let s' := s.modify i fun t => { t with answer := some ok }
        if ok then
          let r := settle e n.fs s' i
          (n.setS sid r.1 r.2, none)
        else (n.setS sid n.fs { s' with files := put s'.files t.oid none }, none)
      else (n, none)
  | .request _ _ => (n, none)
  | .expire sid oid =>
    let s := n.sess sid
    match s.files oid with
    | none => (n, none)
    | some f =>
      let r := settle e n.fs ({ s with files := put s.files oid none }.modify f.task fun t => { t with closed := true })
        f.task
      (n.setS sid r.1 r.2, none)

def run (e : Env M) (n : Host M) (evs : List (Event M)) : Host M := evs.foldl (fun n ev => (step e n ev).1) n

/-- Sessions without files. -/
def Session.init (peers : Nat → Bool) : Session M :=
  { peers, files := fun _ => none, groups := fun _ => none, tasks := [] }

def Host.init (fs : FS) (peers : Nat → Nat → Bool) : Host M := { fs, sess := fun sid => Session.init (peers sid) }

end Verif.FileStore

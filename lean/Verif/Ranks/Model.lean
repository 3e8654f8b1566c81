import Verif.Hierarchy.Model
import Verif.Common.AssocMap
/-
Model of the command hierarchy of a running group: who is given which position, and what takes it away.

Sources under /repo/citadel_proto/src/proto: peer/group_cgka/hierarchy.rs 12-163 (all), peer/group_cgka/mod.rs 28-250 (as far as it
touches the hierarchy), state_container/group_hierarchy_outbound.rs 11-147, state_container/rekey_and_groups.rs 101-232 (`Promote`,
`Demote`, `Kick`), packet_processor/peer/group_broadcast.rs 505-555 (`Message`), 1012-1052 (`HierarchyAssign`), 1075-1112
(publishing a key package), 1117-1220 (owner adds a member).

Simplifications: one group. The flat key agreement (modelled in `Verif.TreeKem` and `Verif.GroupCgka`) is reduced to what the
hierarchy uses: the epoch, the key of the epoch, and cid and public key of each leaf; a commit and a welcome carry the state they
lead to. Every commit of the owner changes the owner's own leaf key (`generate_update_path`), while `own_leaf_secret` stays as
it was drawn. bincode is left out. The server hands on `HierarchyAssign` and `Welcome` in order, and commits in order, but the two
kinds may overtake each other. Messages change no state here, so no message queue is needed: a message that was sent may be read
in any later state. An `Err` of a packet handler ends the session (`ended`). The epoch counter does not overflow.
-/
namespace Verif.Ranks
open Verif Verif.Hierarchy

abbrev Cid := Nat

variable {M : Type} [DecidableEq M] (P : Prims M)

/-- `GroupState` as far as it is used. -/
structure Group (M : Type) where
  epoch : Nat
  key : M
  leaves : List (Option (Cid × M))

/-- `tree.leaf_of_cid`: public key of the first leaf with the cid. -/
def leafOf : List (Option (Cid × M)) → Cid → Option M
  | [], _ => none
  | some (c, pk) :: ls, x => if c = x then some pk else leafOf ls x
  | none :: ls, x => leafOf ls x

/-- `add_leaf`: the first blank leaf, or a new one. -/
def addLeaf (kp : Cid × M) : List (Option (Cid × M)) → List (Option (Cid × M))
  | [] => [some kp]
  | none :: ls => some kp :: ls
  | some l :: ls => some l :: addLeaf kp ls

/-- `remove_leaf` of `leaf_index_of_cid`. -/
def removeLeaf (x : Cid) : List (Option (Cid × M)) → List (Option (Cid × M))
  | [] => []
  | some (c, pk) :: ls => if c = x then none :: ls else some (c, pk) :: removeLeaf x ls
  | none :: ls => none :: removeLeaf x ls

/-- A commit of the owner, whose leaf is the first: new own leaf `s`, new key `k`. -/
def Group.commit (g : Group M) (o : Cid) (s k : M) : Group M :=
  ⟨g.epoch + 1, k, match g.leaves with | [] => [] | _ :: ls => some (o, P.leafPub s) :: ls⟩

/-- `GroupCgkaState`, mod.rs 28-48. `mode` is `none` for `Flat`. -/
structure Client (M : Type) where
  cid : Cid
  group : Option (Group M)
  leafSecret : M
  isOwner : Bool
  mode : Option Policy
  self : Option (Member M)
  ranks : AMap Cid Path

/-- `new_owner`, mod.rs 69-91. -/
def newOwner (cid : Cid) (s k root : M) (mode : Option (Policy × AMap Cid Path)) : Client M :=
  { cid, group := some ⟨0, k, [some (cid, P.leafPub s)]⟩, leafSecret := s, isOwner := true, mode := mode.map Prod.fst
    self := mode.map fun (pol, _) => rootMember root pol
    ranks := match mode with | none => [] | some (_, ranks) => ranks }

/-- `new_joiner`, mod.rs 95-117, always called with `Flat`, group_broadcast.rs 1093. -/
def newJoiner (cid : Cid) (s : M) : Client M :=
  { cid, group := none, leafSecret := s, isOwner := false, mode := none, self := none, ranks := [] }

/-- A position the owner seals to somebody. -/
structure Sealed (M : Type) where
  to : Cid
  member : Member M
  pk : M
  r : Nat

/-- The packet. -/
def Sealed.ct (a : Sealed M) : M := a.member.sealTo P a.pk a.r

/-- `assignment_for_joiner`, hierarchy.rs 15-27. Outer `none`: error. -/
def assignmentForJoiner (c : Client M) (kp : Cid × M) (r : Nat) : Option (Option (Member M × M × Nat)) :=
  match c.self with
  | none => some none
  | some h =>
    match c.ranks.get? kp.1 with
    | none => some none
    | some path => (h.derive P path).map fun m => some (m, kp.2, r)

/-- `add_member`, mod.rs 121-147. -/
def addMember (c : Client M) (kp : Cid × M) (s k : M) (r : Nat) :
    Option (Client M × Group M × Option (Member M × M × Nat)) :=
  if c.isOwner = false then none
  else
    match assignmentForJoiner P c kp r, c.group with
    | some a, some g =>
      let g' := Group.commit P { g with leaves := addLeaf kp g.leaves } c.cid s k
      some ({ c with group := some g' }, g', a)
    | _, _ => none

/-- `remove_member_by_cid`, mod.rs 168-187. -/
def removeByCid (c : Client M) (x : Cid) (s k : M) : Option (Client M × Option (Group M)) :=
  if c.isOwner = false then none
  else
    match c.group with
    | none => none
    | some g =>
      match leafOf g.leaves x with
      | none => some (c, none)
      | some _ =>
        let g' := Group.commit P { g with leaves := removeLeaf x g.leaves } c.cid s k
        some ({ c with group := some g' }, some g')

/-- `join`, mod.rs 190-196: a welcome for somebody else does not open. -/
def join (c : Client M) (g : Group M) : Option (Client M) :=
  if g.leaves.any (fun l => match l with | some l => decide (l.2 = P.leafPub c.leafSecret) | none => false) then
    some { c with group := some g }
  else none

/-- `process_commit`, mod.rs 203-217. -/
def processCommit (c : Client M) (g : Group M) : Option (Client M) :=
  match c.group with
  | none => some c
  | some g0 =>
    if g.epoch ≠ g0.epoch + 1 then some c
    else if g.leaves.any (fun l => match l with | some l => decide (l.2 = P.leafPub c.leafSecret) | none => false) then
      some { c with group := some g }
    else none

/-- `apply_hierarchy_assignment`, hierarchy.rs 32-42. -/
def applyAssignment (c : Client M) (ct : M) : Option (Client M) :=
  match openAssignment P ct c.leafSecret with
  | none => none
  | some m => some { c with mode := if c.isOwner = false then some m.policy else c.mode, self := some m }

/-- `promote`, hierarchy.rs 46-71. -/
def promote (c : Client M) (x : Cid) (path : Path) (r : Nat) : Option (Client M × Option (Sealed M)) :=
  if c.isOwner = false then none
  else
    match c.self with
    | none => none
    | some h =>
      match h.derive P path with
      | none => none
      | some m =>
        let c' := { c with ranks := c.ranks.insert x path }
        match c.group.bind fun g => leafOf g.leaves x with
        | some pk => some (c', some ⟨x, m, pk, r⟩)
        | none => some (c', none)

/-- The path of a demoted member, hierarchy.rs 93-95. -/
def demotedPath (x : Cid) : Path := ["_demoted_" ++ toString x]

/-- The loop of `demote`, hierarchy.rs 98-115. -/
def reseal (newRoot : Member M) (leaves : List (Option (Cid × M))) (r : Cid → Nat) : List (Cid × Path) → Option (List (Sealed M))
  | [] => some []
  | (x, path) :: rest =>
    match leafOf leaves x with
    | none => reseal newRoot leaves r rest
    | some pk =>
      match newRoot.derive P path with
      | none => none
      | some m => (reseal newRoot leaves r rest).map (⟨x, m, pk, r x⟩ :: ·)

/-- `demote`, hierarchy.rs 79-127. -/
def demote (c : Client M) (x : Cid) (root s k : M) (r : Cid → Nat) : Option (Client M × List (Sealed M) × Group M) :=
  if c.isOwner = false then none
  else
    match c.mode, c.group with
    | some pol, some g =>
      let ranks := c.ranks.insert x (demotedPath x)
      let newRoot := rootMember root pol
      match reseal P newRoot g.leaves r ranks with
      | none => none
      | some as =>
        let g' := Group.commit P g c.cid s k
        some ({ c with ranks, self := some newRoot, group := some g' }, as, g')
    | _, _ => none

/-! ### Messages -/

inductive Msg (M : Type)
  /-- `AppCiphertext` -/
  | flat (epoch : Nat) (nonce ct : M)
  | dhe (e : Envelope M)

/-- `flat_key_for_policy`, hierarchy.rs 130-138. -/
def flatKey (c : Client M) : Option M :=
  if c.mode = some .broadcastAudit then c.group.map Group.key else none

/-- `encrypt_message`, mod.rs 222-236, and `encrypt_dhe`, hierarchy.rs 141-150. `ck` is the content key or the nonce. -/
def encrypt (c : Client M) (ck m : M) (r : Nat) : Option (Msg M) :=
  match c.mode with
  | none => c.group.map fun g => .flat g.epoch ck (P.sseal g.key ck m)
  | some _ =>
    match c.self with
    | none => none
    | some h => (h.sealMessage P (flatKey c) ck m r).map .dhe

/-- `decrypt_message`, mod.rs 239-252, and `decrypt_dhe`, hierarchy.rs 153-161. The other kind of message does not parse. -/
def decrypt (c : Client M) : Msg M → Option M
  | .flat e n ct =>
    match c.mode, c.group with
    | none, some g => if e = g.epoch then P.sopen g.key n ct else none
    | _, _ => none
  | .dhe e =>
    match c.mode, c.self with
    | some _, some h => h.openMessage P (flatKey c) e
    | _, _ => none

/-! ### The owner, the relay and the members -/

/-- Packets that the server routes to one client. -/
inductive Routed (M : Type)
  | assign (ct : M)
  | welcome (g : Group M)

structure Sys (M : Type) where
  owner : Client M
  clients : Cid → Option (Client M)
  roster : Cid → Bool
  kps : Cid → Option (Cid × M)
  routed : Cid → List (Routed M)
  commits : Cid → List (Group M)

/-- What an action lets out. -/
structure Out (M : Type) where
  ended : Bool := false
  assigns : List (Sealed M) := []
  msg : Option (Msg M) := none

inductive Act (M : Type)
  /-- the server lets `c` in, which publishes a key package with the leaf secret `s` -/
  | accept (c : Cid) (s : M)
  /-- the owner gets the key package of `c` -/
  | add (c : Cid) (s k : M) (r : Nat)
  | promote (c : Cid) (path : Path) (r : Nat)
  | demote (c : Cid) (root s k : M) (r : Cid → Nat)
  | kick (c : Cid) (s k : M)
  | leave (c : Cid)
  | getRouted (c : Cid)
  | getCommit (c : Cid)
  | send (c : Cid) (ck m : M) (r : Nat)
  | ownerSend (ck m : M) (r : Nat)

def put {A : Type} (f : Cid → A) (c : Cid) (a : A) : Cid → A := fun x => if x = c then a else f x

/-- To all on the roster. -/
def Sys.cast (y : Sys M) (g : Group M) : Cid → List (Group M) := fun x =>
  if y.roster x = true then y.commits x ++ [g] else y.commits x

/-- The assignments of `as`, each to its target. -/
def route (f : Cid → List (Routed M)) (as : List (Sealed M)) : Cid → List (Routed M) := fun x =>
  f x ++ (as.filter (fun a => a.to = x)).map fun a => .assign (a.ct P)

/-- Sender of the packet and so the target of the two packets of an addition is the `joiner_cid` of the signal, `c`. -/
def act (y : Sys M) : Act M → Sys M × Out M
  | .accept c s =>
    match y.clients c with
    | some _ => ({ y with roster := put y.roster c true }, {})
    | none => ({ y with roster := put y.roster c true, clients := put y.clients c (some (newJoiner c s)),
                        kps := put y.kps c (some (c, P.leafPub s)) }, {})
  | .add c s k r =>
    match y.kps c with
    | none => (y, {})
    | some kp =>
      match addMember P y.owner kp s k r with
      | none => ({ y with kps := put y.kps c none }, { ended := true })
      | some (ow, g, a) =>
        let as := (a.map fun e => (⟨c, e.1, e.2.1, e.2.2⟩ : Sealed M)).toList
        let q := route P y.routed as
        ({ y with owner := ow, kps := put y.kps c none, commits := y.cast g, routed := put q c (q c ++ [.welcome g]) },
          { assigns := as })
  | .promote c path r =>
    match promote P y.owner c path r with
    | none => (y, {})
    | some (ow, a) => ({ y with owner := ow, routed := route P y.routed a.toList }, { assigns := a.toList })
  | .demote c root s k r =>
    match demote P y.owner c root s k r with
    | none => (y, {})
    | some (ow, as, g) =>
      ({ y with owner := ow, routed := route P y.routed as, commits := y.cast g }, { assigns := as })
  | .kick c s k =>
    let y := { y with roster := put y.roster c false }
    match removeByCid P y.owner c s k with
    | none => (y, {})
    | some (ow, none) => ({ y with owner := ow }, {})
    | some (ow, some g) => ({ y with owner := ow, commits := y.cast g }, {})
  | .leave c => ({ y with roster := put y.roster c false }, {})
  | .getRouted c =>
    match y.routed c with
    | [] => (y, {})
    | p :: rest =>
      let y := { y with routed := put y.routed c rest }
      if c = y.owner.cid then
        match p with
        | .assign ct =>
          match applyAssignment P y.owner ct with
          | some ow => ({ y with owner := ow }, {})
          | none => (y, { ended := true })
        | .welcome _ => (y, { ended := true })
      else
        match y.clients c with
        | none => (y, {})
        | some cl =>
          match (match p with | .assign ct => applyAssignment P cl ct | .welcome g => join P cl g) with
          | some cl => ({ y with clients := put y.clients c (some cl) }, {})
          | none => (y, { ended := true })
  | .getCommit c =>
    match y.commits c with
    | [] => (y, {})
    | g :: rest =>
      let y := { y with commits := put y.commits c rest }
      match y.clients c with
      | none => (y, {})
      | some cl =>
        match processCommit P cl g with
        | some cl => ({ y with clients := put y.clients c (some cl) }, {})
        | none => (y, { ended := true })
  | .send c ck m r => (y, { msg := (y.clients c).bind fun cl => encrypt P cl ck m r })
  | .ownerSend ck m r => (y, { msg := encrypt P y.owner ck m r })

/-- The owner `o` has just made the group. -/
def Sys.start (o : Cid) (s k root : M) (mode : Option (Policy × AMap Cid Path)) : Sys M :=
  ⟨newOwner P o s k root mode, fun _ => none, fun _ => false, fun _ => none, fun _ => [], fun _ => []⟩

def run (y : Sys M) : List (Act M) → Sys M
  | [] => y
  | a :: as => run (act P y a).1 as

/-- All that was let out. -/
def outs (y : Sys M) : List (Act M) → List (Out M)
  | [] => []
  | a :: as => (act P y a).2 :: outs (act P y a).1 as

end Verif.Ranks

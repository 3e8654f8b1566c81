/-
Model of the internal service: a program (a web server, say) that talks over the channel of each
client as if over a socket.

Sources:
  * `citadel_sdk/src/prefabs/shared/internal_service.rs` 58-115 (`internal_service`), 117-121
    (`InternalServerCommunicator`), 123-144 (`AsyncWrite`), 146-154 (`AsyncRead`).
  * `citadel_sdk/src/prefabs/server/internal_service.rs` 79-103 (one service for each client that
    connects).
  * `citadel_proto/src/proto/remote.rs` 214-217 (`shutdown`), `citadel_proto/src/proto/node.rs`
    250-269 and 652-654 (the node ends on `NodeRequest::Shutdown`).
  * `tokio_util::io::StreamReader` (`poll_read` reads from the current chunk, and takes the next
    chunk of the stream when it is used up; empty chunks are skipped).

Simplifications, all of them stated:
  * the three futures of the `select!` are steps that may come in any order;
  * the node handles the request to shut down in a step of its own; after it nothing moves;
  * a service keeps its communicator until it ends.
-/

namespace Verif.Service

abbrev Bytes := List UInt8

/-- The state of `internal_service` for one client: packets of the channel that `from_proto` has not
taken yet, the queue to the service, the chunk that `StreamReader` is reading, the queue from the
service, and whether the `select!` is over. -/
structure Svc where
  inbox : List Bytes
  toSvc : List Bytes
  chunk : Bytes
  fromSvc : List Bytes
  over : Bool
deriving DecidableEq, Repr

def Svc.new : Svc := { inbox := [], toSvc := [], chunk := [], fromSvc := [], over := false }

inductive Ev
  /-- A packet of the client reaches the channel. -/
  | arrive (m : Bytes)
  /-- `from_proto` takes a packet to the queue of the service (84-88). -/
  | forward
  /-- The service reads, with room for `n` bytes (146-154). -/
  | read (n : Nat)
  /-- The service writes (124-135): one packet for each write. -/
  | write (m : Bytes)
  /-- `from_webserver` takes a packet of the service to the sink (94-96). -/
  | send
  /-- The channel of the client ends, the sink fails, or the service returns (101-111). -/
  | stop
deriving DecidableEq, Repr

inductive Out
  /-- A read returned these bytes. -/
  | got (b : Bytes)
  /-- A read has to wait. -/
  | wait
  /-- A packet went to the client. -/
  | sent (m : Bytes)
deriving DecidableEq, Repr

/-- `poll_fill_buf` of `StreamReader`: the current chunk and the queue, after empty chunks were
skipped. -/
def fill : Bytes → List Bytes → Bytes × List Bytes
  | b :: c, q => (b :: c, q)
  | [], [] => ([], [])
  | [], m :: q => fill m q

def Svc.step (v : Svc) : Ev → Svc × List Out
  | .arrive m => ({ v with inbox := v.inbox ++ [m] }, [])
  | .forward =>
    match v.inbox with
    | m :: q => ({ v with inbox := q, toSvc := v.toSvc ++ [m] }, [])
    | [] => (v, [])
  | .read n =>
    if n = 0 then (v, [.got []])
    else
      match fill v.chunk v.toSvc with
      | ([], q) => ({ v with chunk := [], toSvc := q }, [.wait])
      | (b :: c, q) =>
        ({ v with chunk := (b :: c).drop n, toSvc := q }, [.got ((b :: c).take n)])
  | .write m => ({ v with fromSvc := v.fromSvc ++ [m] }, [])
  | .send =>
    match v.fromSvc with
    | m :: q => ({ v with fromSvc := q }, [.sent m])
    | [] => (v, [])
  | .stop => ({ v with over := true }, [])

/-- A node with a service for each client: `asked` is a `NodeRequest::Shutdown` on its way, `up`
whether the node runs. -/
structure Node where
  svc : Nat → Svc
  asked : Bool
  up : Bool

def Node.new : Node := { svc := fun _ => Svc.new, asked := false, up := true }

inductive Act
  /-- The service of client `i` does something. -/
  | at (i : Nat) (e : Ev)
  /-- The node takes the next request. -/
  | node
deriving DecidableEq, Repr

def put (f : Nat → Svc) (i : Nat) (v : Svc) : Nat → Svc := fun j => if j = i then v else f j

/-- The end of a service asks the node to shut down (`remote.remote().shutdown()`, 113). -/
def Node.step (s : Node) : Act → Node × List (Nat × Out)
  | .at i e =>
    if s.up = true ∧ (s.svc i).over = false then
      ({ s with svc := put s.svc i ((s.svc i).step e).1,
                asked := s.asked || ((s.svc i).step e).1.over },
        ((s.svc i).step e).2.map fun o => (i, o))
    else (s, [])
  | .node => (if s.asked = true then { s with up := false } else s, [])

def Node.run (s : Node) : List Act → Node × List (Nat × Out)
  | [] => (s, [])
  | a :: as => (((s.step a).1.run as).1, (s.step a).2 ++ ((s.step a).1.run as).2)

end Verif.Service

import Verif.Ordered.Model
/-
Who takes the group ids of a connection, and what the receiver's ordered channel makes of them.
Sources: /repo/citadel_crypt/src/endpoint_crypto_container.rs lines 322-329 (`get_and_increment_group_id`,
           `get_and_increment_group_file_transfer`), 346-350 (`refresh_state`);
         /repo/citadel_proto/src/proto/session.rs lines 1475, 1523-1526 (file to the server), 1579-1582, 1643-1648 (file to
           a peer), 2005-2017 (`send_ratchet_message`);
         /repo/citadel_crypt/src/scramble/streaming_crypt_scrambler.rs line 386 (the id of a group of a file);
         /repo/citadel_proto/src/proto/packet_processor/primary_group_packet.rs lines 182-238 (`GroupHeader::Ratchet`,
           `GroupHeader::Standard`);
         /repo/citadel_proto/src/proto/state_container/channels.rs lines 9-22 (`forward_data_to_ordered_channel`);
         /repo/citadel_proto/src/proto/state_container/virtual_connections.rs line 223 (the ordered channel of a connection).

A message (of the user, or of the re-key protocol: both are `RatchetMessage`s) takes the next id of the messaging counter,
and the receiver orders messages by that id.  A file takes a start id and numbers its groups from there; only its first
id comes out of a counter by name, the others are reserved on the file counter.

Simplifications: ids are `u64`s written as `Nat` with explicit wrap-around; contents of groups are left out; packets that
are refused by the transport are left out (the connection is then gone).
-/
namespace Verif.GroupIds
open Verif

variable {T : Type}

/-- `incrementing_group_id_messaging` and `incrementing_group_id_file_transfer`. -/
structure Counters where
  msg : Nat
  file : Nat

/-- Whom the connection leads to. -/
inductive Conn where
  | server
  | peer
  deriving DecidableEq

/-- What the sender is asked to send. -/
inductive Send (T : Type) where
  | message (m : T)
  | file (groups : Nat)

/-- What it puts on the wire: the group header of a message, or of one group of a file. -/
inductive Pkt (T : Type) where
  | message (id : Nat) (m : T)
  | group (id : Nat)

/-- `refresh_state`. -/
def fresh : Counters := ⟨0, 0⟩

/-- The groups of a file, from its start id (streaming_crypt_scrambler.rs line 386). -/
def groups (start n : Nat) : List (Pkt T) := (List.range n).map fun i => .group ((start + i) % 2 ^ 64)

/-- One request. -/
def send (c : Conn) (s : Counters) : Send T → Counters × List (Pkt T)
  | .message m => ({ s with msg := Ordered.wsucc s.msg }, [.message s.msg m])
  | .file n =>
    match c with
    | .server => ({ s with file := (s.file + 1 + (n - 1)) % 2 ^ 64 }, groups s.file n)
    | .peer => ({ msg := Ordered.wsucc s.msg, file := (s.file + (n - 1)) % 2 ^ 64 }, groups s.msg n)

/-- Everything the sender puts on the wire. -/
def emit (c : Conn) (s : Counters) : List (Send T) → List (Pkt T)
  | [] => []
  | r :: rs => (send c s r).2 ++ emit c (send c s r).1 rs

/-- The receiver: messages go to the ordered channel, groups of files do not. -/
def receive (ch : Ordered.Chan T) : List (Pkt T) → Ordered.Chan T
  | [] => ch
  | .message id m :: ps => receive (Ordered.onPacketReceived ch id m) ps
  | .group _ :: ps => receive ch ps

end Verif.GroupIds

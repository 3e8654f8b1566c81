import Verif.Rekey.Props
/-
Packets on the wire while the endpoints re-key.
Sources: /repo/citadel_proto/src/proto/state_container/virtual_connections.rs lines 142-160 (`task_outbound`), 200-235;
         /repo/citadel_proto/src/proto/session.rs `spawn_message_sender_function` lines 1899-2050
           (`send_ratchet_message`: the ratchet is `get_ratchet(None)` at the time of sending);
         /repo/citadel_proto/src/proto/packet_processor/primary_group_packet.rs `process_primary_packet` lines 67-330,
           `get_orientation_safe_ratchet` lines 486-535;
         /repo/citadel_proto/src/proto/packet_crafter.rs `craft_group_header_packet`, `craft_group_header_ack`;
         /repo/citadel_crypt/src/endpoint_crypto_container.rs `get_ratchet` lines 127-141.

A message of the re-key protocol passes four places on its way: the outbound queue of the sender, from which the message
sender task takes it, encrypts it with the sender's ratchet of the moment and puts it on the wire; the wire; the packet
processor of the receiver, which decrypts it with the ratchet named in the header; and the inbound queue, from which
the background task takes it.  All other packets are encrypted with the sender's ratchet of the moment and put on the
wire directly.  The answer to a packet is encrypted with the ratchet of that packet.

Simplifications:
* one ordered wire in each direction (the code may change from the server's proxy to a direct connection);
* the ordered channel between packet processor and inbound queue is left out: on an ordered wire it does nothing (see
  `Verif.Ordered`, and `Verif.GroupIds` for what else takes its ids);
* a packet is the version and the ratchet it is encrypted with; it can be opened with the same ratchet only.
-/
namespace Verif.Rekey

/-- A packet: the usable version of the sender when it was sent (not part of the packet, for the proofs only), the
version in its header, the ratchet it is encrypted with, whether it answers another packet, and the re-key message
inside, if it is one. -/
structure Pkt where
  sent : Nat
  ver : Nat
  key : Key
  reply : Bool
  body : Option Msg

/-- One direction: the sender's outbound queue, the wire, and the receiver's inbound queue (with the usable version of
the sender when the message was sent, for the proofs only). -/
structure Dir where
  out : List Msg
  wire : List Pkt
  inq : List (Nat × Msg)

structure DSys where
  i : EP
  n : EP
  toI : Dir
  toN : Dir

/-- `get_ratchet(None)`: the version and the ratchet an endpoint encrypts with. -/
def current (x : EP) : Option (Nat × Key) :=
  match x.keys x.latest with
  | some k => some (x.latest, k)
  | none => (x.keys (x.latest - 1)).map fun k => (x.latest - 1, k)

inductive DAct where
  /-- a task of the ratchet manager runs (see `coopStep`) -/
  | act (a : Act)
  /-- the message sender task of the endpoint -/
  | transmit (who : Bool)
  /-- some other packet of the endpoint -/
  | data (who : Bool)
  /-- the packet processor of the endpoint; does it answer? -/
  | deliver (who answer : Bool)

/-- Send the next queued message. -/
def transmit (x : EP) (d : Dir) : Dir :=
  match d.out, current x with
  | m :: rest, some (v, k) => { d with out := rest, wire := d.wire ++ [⟨x.latest, v, k, false, some m⟩] }
  | _, _ => d

/-- Send some other packet. -/
def sendData (x : EP) (d : Dir) : Dir :=
  match current x with
  | some (v, k) => { d with wire := d.wire ++ [⟨x.latest, v, k, false, none⟩] }
  | none => d

/-- Can the endpoint open the packet? -/
def opens (x : EP) (p : Pkt) : Prop := x.keys p.ver = some p.key

instance (x : EP) (p : Pkt) : Decidable (opens x p) := by unfold opens; infer_instance

/-- The packet processor of `x`: `d` is the direction to `x`, `back` the direction from `x`. A packet that cannot be
opened is dropped. An answer is not answered. -/
def deliver (x : EP) (answer : Bool) (d back : Dir) : Dir × Dir :=
  match d.wire with
  | [] => (d, back)
  | p :: rest =>
    if opens x p then
      ({ d with wire := rest, inq := d.inq ++ (p.body.map fun m => (p.sent, m)).toList },
       if answer = true ∧ p.reply = false then { back with wire := back.wire ++ [⟨x.latest, p.ver, p.key, true, none⟩] }
       else back)
    else ({ d with wire := rest }, back)

/-- A step of the background task: it sees the inbound queue only, and sends to the outbound queue. -/
def bgD (maxR : Nat) (init : Bool) (x : EP) (d back : Dir) (fr : Nat) : EP × Dir × Dir :=
  let r := bMacro maxR init x (d.inq.map Prod.snd) fr
  (r.1, { d with inq := if x.b = .recv then d.inq.tail else d.inq }, { back with out := back.out ++ r.2.2 })

def dStep (maxR : Nat) (s : DSys) : DAct → DSys
  | .act (.bg true fr) =>
    if bgEnabled s.i then
      let r := bgD maxR true s.i s.toI s.toN fr
      { s with i := r.1, toI := r.2.1, toN := r.2.2 }
    else s
  | .act (.bg false fr) =>
    if bgEnabled s.n then
      let r := bgD maxR false s.n s.toN s.toI fr
      { s with n := r.1, toN := r.2.1, toI := r.2.2 }
    else s
  | .act (.trig true fr) =>
    let r := tMacro s.i fr
    { s with i := r.1, toN := { s.toN with out := s.toN.out ++ r.2 } }
  | .act (.trig false fr) =>
    let r := tMacro s.n fr
    { s with n := r.1, toI := { s.toI with out := s.toI.out ++ r.2 } }
  | .transmit true => { s with toN := transmit s.i s.toN }
  | .transmit false => { s with toI := transmit s.n s.toI }
  | .data true => { s with toN := sendData s.i s.toN }
  | .data false => { s with toI := sendData s.n s.toI }
  | .deliver true answer =>
    let r := deliver s.i answer s.toI s.toN
    { s with toI := r.1, toN := r.2 }
  | .deliver false answer =>
    let r := deliver s.n answer s.toN s.toI
    { s with toN := r.1, toI := r.2 }

def dRun (maxR : Nat) : DSys → List DAct → DSys
  | s, [] => s
  | s, a :: as => dRun maxR (dStep maxR s a) as

/-- A new session. -/
def dStart (v : Nat) (k : Key) : DSys :=
  { i := freshEP v k, n := freshEP v k, toI := ⟨[], [], []⟩, toN := ⟨[], [], []⟩ }

/-- The receiver can open everything that is on the wire to it. -/
def AllOpen (s : DSys) : Prop := (∀ p ∈ s.toI.wire, opens s.i p) ∧ (∀ p ∈ s.toN.wire, opens s.n p)

end Verif.Rekey

import Verif.Common.Bytes
import Verif.Common.Res
/-
Model of the file splitter: packet coordinates, group metadata, cutting and encrypting waves, the group receiver and the
acknowledgement counter of the sender.
Sources: /repo/citadel_crypt/src/packet_vector.rs lines 89-140, /repo/citadel_crypt/src/misc.rs lines 59-79,
/repo/citadel_crypt/src/scramble/crypt_splitter.rs lines 47-70, 85-160, 228-381, 505-717, 731-1076, 1110-1197, 1280-1303.

Numbers are natural numbers: group plaintexts are at most 10 MiB, so the casts to `u32`/`u64` on the sending side are exact
(the wave id keeps its cast). Timers, object and group ids and headers are left out. `BytesMut::capacity` of a
freshly zeroed buffer is its length. The cipher is a parameter: wave `i` is encrypted by `enc i` (each call draws its own nonce and
appends it), `dec` reads the nonce from the end. A `HashMap` of waves `0..wave_count` is a function with `none` for absent.
-/
namespace Verif.Splitter
open Verif

/-! ### Coordinates -/

/-- The `scramble_mappings` built by `create_port_mapping` from the two shuffled port lists. -/
def portMapping (inputs outputs : List Nat) : List (Nat × Nat) := inputs.zip outputs

/-- `generate_packet_vector`: wave id (cast to `u32`), local port, remote port; `none` is the `unwrap` panic. -/
def packetVector (mapping : List (Nat × Nat)) (seq : Nat) : Option (Nat × Nat × Nat) :=
  (mapping[seq % mapping.length]?).map fun m => (seq / mapping.length % 2 ^ 32, m.1, m.2)

/-- `generate_packet_coordinates_inv`. -/
def coordinatesInv (mapping : List (Nat × Nat)) (wave src dst : Nat) : Option Nat :=
  (mapping.findIdx? fun m => m.1 = src ∧ m.2 = dst).map fun idx => wave * mapping.length + idx

/-! ### Metadata -/

/-- `GroupReceiverConfig`. -/
structure Cfg where
  packetsNeeded : Nat
  maxPackets : Nat
  plainLen : Nat
  maxPayload : Nat
  lastPayload : Nat
  fullWaves : Nat
  partialWaves : Nat
  waveCount : Nat
  maxPlain : Nat
  lastPlain : Nat
  packetsInLast : Nat
  emptyTransfer : Bool
deriving DecidableEq, Repr

/-- `div_ceil`. -/
def divCeil (a b : Nat) : Nat := (a + b - 1) / b

/-- `get_max_packet_size`, lines 56-70, at security exponent 0 (the level is capped at `Standard`); `ctLen` is
`max_ciphertext_len`. -/
def maxPacketSize (ctLen : Nat → Nat) : Nat := max (ctLen 480 + 8) 16

/-- `GroupReceiverConfig::new_refresh`, lines 505-555. -/
def newRefresh (plainLen maxPayload full part maxPlain lastPlain maxPackets ctLast : Nat) (empty : Bool) : Cfg :=
  let inLast := divCeil ctLast maxPayload
  { packetsNeeded := full * maxPackets + inLast, maxPackets := maxPackets, plainLen := plainLen
    maxPayload := maxPayload
    lastPayload := if ctLast % maxPayload = 0 then maxPayload else ctLast % maxPayload
    fullWaves := full, partialWaves := part, waveCount := full + part, maxPlain := maxPlain, lastPlain := lastPlain
    packetsInLast := inLast, emptyTransfer := empty }

/-- `generate_scrambler_metadata`, lines 85-160: `n` is the plaintext length, `w` the multiport width. -/
def metadata (ctLen : Nat → Nat) (w n : Nat) (empty : Bool) : Option Cfg :=
  if n = 0 then none
  else
    let maxPayload := maxPacketSize ctLen
    let maxPlain := maxPayload * w - (maxPayload - 480)
    let r : Nat × Nat × Nat :=
      if n < maxPlain then (0, 1, n % maxPlain)
      else if n % maxPlain = 0 then (n / maxPlain, 0, maxPlain)
      else (n / maxPlain, 1, n % maxPlain)
    let ctLast := if r.2.1 ≠ 0 then 8 + ctLen r.2.2 else 0
    some (newRefresh n maxPayload r.1 r.2.1 maxPlain r.2.2 w ctLast empty)

def maxBytesPerGroup : Nat := 1024 * 1024 * 10

/-- `GroupReceiverConfig::validate`, lines 574-717 (checked arithmetic never overflows for fields below 2^32 and
`max_payload_size` below 2^64 only by exceeding 2^64, which the final ceiling rejects as well). -/
def validate (c : Cfg) : Bool :=
  decide (c.plainLen ≤ maxBytesPerGroup) && decide (c.maxPayload ≠ 0) && decide (c.maxPackets ≠ 0) &&
  decide (c.waveCount ≠ 0) && decide (c.packetsNeeded ≠ 0) && decide (c.partialWaves ≤ 1) &&
  decide (c.fullWaves + c.partialWaves = c.waveCount) &&
  decide (c.fullWaves * c.maxPackets + c.packetsInLast = c.packetsNeeded) &&
  decide (c.packetsInLast ≠ 0) && decide (c.packetsInLast ≤ c.maxPackets) &&
  decide (c.lastPayload ≤ c.maxPayload) && decide (c.lastPlain ≤ c.maxPlain) &&
  decide (c.fullWaves * c.maxPlain + c.partialWaves * c.lastPlain = c.plainLen) &&
  decide (c.plainLen + c.fullWaves * c.maxPayload * c.maxPackets + ((c.packetsInLast - 1) * c.maxPayload + c.lastPayload) +
    (c.packetsNeeded / 8 + 1) + (c.waveCount / 8 + 1) + c.waveCount * 128 ≤ 4 * maxBytesPerGroup)

/-! ### Sender -/

/-- `chunks(size)`. -/
def chunks (size : Nat) (l : Bytes) : List Bytes :=
  (List.range (divCeil l.length size)).map fun i => (l.drop (i * size)).take size

structure Packet where
  seq : Nat
  wave : Nat
  payload : Bytes
deriving DecidableEq, Repr

/-- `scramble_encrypt_wave`, lines 327-381, before shuffling. -/
def wavePackets (c : Cfg) (w i : Nat) (ct : Bytes) : List Packet :=
  (chunks c.maxPayload ct).zipIdx.map fun p => ⟨i * c.maxPackets + p.2, (i * c.maxPackets + p.2) / w, p.1⟩

/-- `encrypt_waves`. -/
def packets (c : Cfg) (w : Nat) (enc : Nat → Bytes → Bytes) (plain : Bytes) : List Packet :=
  ((chunks c.maxPlain plain).zipIdx.map fun p => wavePackets c w p.2 (enc p.2 p.1)).flatten

/-- `par_scramble_encrypt_group`, lines 228-324, after the optional local encryption: announced configuration and packets.
`fixed` says: not the hybrid algorithm, and a plain file transfer. -/
def sendGroup (ctLen : Nat → Nat) (w : Nat) (enc : Nat → Bytes → Bytes) (fixed : Bool) (plain : Bytes) (empty : Bool) :
    Option (Cfg × List Packet) :=
  (metadata ctLen w plain.length empty).map fun c =>
    let ps := packets c w enc plain
    if fixed then (c, ps)
    else
      let ctLast := ((ps.filter fun p => p.wave = c.waveCount - 1).map fun p => p.payload.length).sum
      (newRefresh plain.length c.maxPayload c.fullWaves c.partialWaves c.maxPlain c.lastPlain c.maxPackets ctLast empty, ps)

/-- A packet on the wire: wave id from the header, then the two port bytes and the payload
(/repo/citadel_proto/src/proto/packet_crafter.rs lines 328-358). -/
structure Wire where
  wave : Nat
  body : Bytes
deriving DecidableEq, Repr

def toWire (mapping : List (Nat × Nat)) (p : Packet) : Option Wire :=
  (packetVector mapping p.seq).map fun v => ⟨v.1, UInt8.ofNat v.2.1 :: UInt8.ofNat v.2.2 :: p.payload⟩

/-- `on_group_payload_received`, /repo/citadel_proto/src/proto/state_container/inbound_transfer.rs lines 313-343. -/
def fromWire (mapping : List (Nat × Nat)) (x : Wire) : Option Packet :=
  match x.body with
  | src :: dst :: payload => (coordinatesInv mapping x.wave src.toNat dst.toNat).map fun s => ⟨s, x.wave, payload⟩
  | _ => none

/-! ### Receiver -/

/-- `TempWaveStore`. -/
structure Wave where
  received : Nat
  inWave : Nat
  written : Nat
  buf : Bytes
deriving DecidableEq, Repr

/-- `GroupReceiver`. -/
structure Recv where
  cfg : Cfg
  slab : Bytes
  store : Nat → Option Wave
  got : Nat → Bool
  wavesGot : Nat → Bool
  received : Nat
  plainWritten : Nat
  lowest : Int
  last : Int

inductive Status where
  | groupComplete (w : Nat)
  | invalid
  | already
  | inserted
  | corrupt
  | waveComplete (w : Nat)
  | panic
deriving DecidableEq, Repr

def newWave (c : Cfg) (w : Nat) : Wave :=
  if w = c.waveCount - 1 then
    { received := 0, inWave := c.packetsInLast, written := 0
      buf := List.replicate ((c.packetsInLast - 1) * c.maxPayload + c.lastPayload) 0 }
  else { received := 0, inWave := c.maxPackets, written := 0, buf := List.replicate (c.maxPayload * c.maxPackets) 0 }

/-- `GroupReceiver::new`, lines 731-818. -/
def newRecv (c : Cfg) : Recv :=
  { cfg := c, slab := List.replicate c.plainLen 0
    store := fun w => if w < c.waveCount then some (newWave c w) else none
    got := fun _ => false, wavesGot := fun _ => false, received := 0, plainWritten := 0, lowest := -1, last := -1 }

/-- `copy_from_slice` at an offset. -/
def splice (buf : Bytes) (start : Nat) (data : Bytes) : Bytes :=
  buf.take start ++ data ++ buf.drop (start + data.length)

/-- `check_bounds` for a range `a..b`. -/
def checkBounds (len a b : Nat) : Bool := !(decide (a ≤ len) && decide (len < b))

/-- `get_ciphertext_insertion_range`, lines 1037-1057; `none` is the subtraction overflow. -/
def insertionRange (c : Cfg) (seq : Nat) (len : Nat) : Option (Nat × Nat) :=
  if seq = c.packetsNeeded - 1 then
    if len < c.lastPayload then none else some (len - c.lastPayload, len)
  else
    let start := c.maxPayload * (seq % c.maxPackets)
    some (start, c.maxPayload + start)

/-- Writing one packet into its wave, lines 857-888: the new wave, or the status to return. -/
def insertPacket (c : Cfg) (seq : Nat) (v : Wave) (payload : Bytes) : Except Status Wave :=
  match insertionRange c seq v.buf.length with
  | none => .error .panic
  | some (a, b) =>
    if checkBounds v.buf.length a b then
      if b < a ∨ v.buf.length < b then .error .panic
      else if b - a < payload.length then .error .invalid
      else .ok { v with received := v.received + 1, written := v.written + payload.length, buf := splice v.buf a payload }
    else .error .invalid

/-- `self.temp_wave_store.is_empty()`. -/
def storeEmpty (r : Recv) : Bool := (List.range r.cfg.waveCount).all fun w => (r.store w).isNone

def setFn {α : Type} (f : Nat → α) (k : Nat) (v : α) : Nat → α := fun n => if n = k then v else f n

/-- Completion of a wave, lines 890-983. -/
def finishWave (dec : Bytes → Option Bytes) (r : Recv) (wave : Nat) (v : Wave) : Recv × Status :=
  let r := { r with store := setFn r.store wave none }
  match dec (v.buf.take v.written) with
  | none => (r, .corrupt)
  | some plain =>
    let start := wave * r.cfg.maxPlain
    if start + plain.length > r.slab.length then (r, .corrupt)
    else
      let r := { r with slab := splice r.slab start plain, plainWritten := r.plainWritten + plain.length }
      if storeEmpty r then
        if r.plainWritten ≠ r.slab.length then (r, .corrupt) else (r, .groupComplete wave)
      else
        ({ r with lowest := if (wave : Int) - 1 = r.lowest then (wave : Int) else r.lowest
                  wavesGot := setFn r.wavesGot wave true, last := wave }, .waveComplete wave)

/-- `on_packet_received`, lines 821-985. -/
def onPacket (dec : Bytes → Option Bytes) (r : Recv) (p : Packet) : Recv × Status :=
  if p.seq < r.cfg.packetsNeeded then
    if r.got p.seq then (r, .already)
    else
      let r := { r with got := setFn r.got p.seq true, received := r.received + 1 }
      match r.store p.wave with
      | none => (r, .invalid)
      | some v =>
        match insertPacket r.cfg p.seq v p.payload with
        | .error s => (r, s)
        | .ok v =>
          let r := { r with store := setFn r.store p.wave (some v) }
          if v.received = v.inWave then finishWave dec r p.wave v else (r, .inserted)
  else (r, .invalid)

/-- A sequence of packets: final state and the statuses in order. -/
def deliver (dec : Bytes → Option Bytes) : Recv → List Packet → Recv × List Status
  | r, [] => (r, [])
  | r, p :: ps =>
    let s := onPacket dec r p
    let t := deliver dec s.1 ps
    (t.1, s.2 :: t.2)

/-- Packets from the wire; one that cannot be located is dropped with an error and leaves the receiver alone. -/
def deliverWire (dec : Bytes → Option Bytes) (mapping : List (Nat × Nat)) (r : Recv) (xs : List Wire) : Recv × List Status :=
  deliver dec r (xs.filterMap (fromWire mapping))

/-- `finalize`, lines 1028-1034. -/
def finalize (r : Recv) : Bytes := if r.cfg.emptyTransfer then [] else r.slab

/-- `get_missing_waves`, lines 988-1015: `none` is the slice panic, an empty list the answer `None`. -/
def missingWaves (r : Recv) : Option (List Nat) :=
  if r.lowest < 0 then some []
  else
    let a := r.lowest.toNat
    let b := r.last.toNat
    if b < a ∨ r.cfg.waveCount < b then none
    else some ((List.range' a (b - a)).filter fun w => !r.wavesGot w)

/-- `get_missing_count_in_wave`, lines 1017-1026. -/
def missingCount (r : Recv) (w : Nat) : Option Nat := (r.store w).map fun v => v.inWave - v.received

/-! ### Acknowledgements at the sender -/

/-- `get_packets_in_wave`, lines 1236-1243. -/
def packetsInWave (c : Cfg) (w : Nat) : Nat := if w = c.waveCount - 1 then c.packetsInLast else c.maxPackets

/-- `on_wave_tail_ack_received`, lines 1170-1197: new counter and the answer. -/
def onAck (c : Cfg) (received wave : Nat) : Nat × Bool :=
  if wave ≥ c.waveCount then (received, false)
  else (received + packetsInWave c wave, decide (received + packetsInWave c wave = c.packetsNeeded))

def acks (c : Cfg) : Nat → List Nat → List Bool
  | _, [] => []
  | n, w :: ws => (onAck c n w).2 :: acks c (onAck c n w).1 ws

/-- `get_next_packet` called until it stops: `none` is the `unwrap` panic on a missing packet. -/
def drainAll (c : Cfg) (ps : List Packet) : Option (List Packet) :=
  (List.range c.packetsNeeded).mapM fun i => ps.find? fun p => p.seq = i

end Verif.Splitter

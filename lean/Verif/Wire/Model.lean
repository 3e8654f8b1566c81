import Verif.Common.Bytes
/-!
# The primary stream: framing, the header obfuscator and the outbound loop

* `citadel_proto/src/proto/misc/direct_frame_writer.rs` 54-118: the writer.
* `citadel_proto/src/proto/misc/mod.rs` 95-157: the reader (`LengthDelimitedCodec`) and the functions which read
  and write the very first packet of a connection.
* `citadel_proto/src/proto/packet.rs` 310-525: the header obfuscator and its cipher.
* `citadel_proto/src/proto/outbound_sender.rs` 70-105: the queued packets.
* `citadel_proto/src/proto/session.rs` 806-875 (`outbound_stream`), 1080-1095 (the inbound stream).

Simplifications: the transport is a reliable ordered stream of bytes which may be cut into chunks in any way and may
keep back bytes until it is flushed; write errors are left out (they end the session). The hash of the obfuscator key
and the random numbers are parameters. A `u128` is a natural number; the keys that the constructors produce come from
a hash of sixteen bytes and from `get_u128`, and are below `2 ^ 128`.
-/
namespace Verif.Wire

/-! ## The header obfuscator -/

/-- `HDP_HEADER_BYTE_LEN` (`constants.rs`; the fields of `HdpHeader`, `packet.rs` 185-209). -/
def headerLen : Nat := 64

/-- `DISABLED_KEY` (`packet.rs` 319). -/
def disabledKey : Nat := 2 ^ 128 - 1

/-- `cipher_inner` (`packet.rs` 514-521). -/
def cipherInner (a b : UInt8) (c : UInt8) (inverse : Bool) : UInt8 :=
  if inverse then (c ^^^ b) - a else (c + a) ^^^ b

/-- `apply_cipher` (`packet.rs` 500-512): the first eight bytes of the key are zipped with the last eight, the pairs
are cycled over the first `HDP_HEADER_BYTE_LEN` bytes of the packet. -/
def applyCipher (val : Nat) (inverse : Bool) (packet : Bytes) : Bytes :=
  let bytes := toBE 16 val
  let pairs := (bytes.take 8).zip (bytes.drop 8)
  (packet.take headerLen).mapIdx (fun i c =>
      let ab := pairs.getD (i % 8) (0, 0)
      cipherInner ab.1 ab.2 c inverse)
    ++ packet.drop headerLen

/-- `HeaderObfuscatorSettings`. -/
inductive Settings
  | enabled
  | disabled
  | withKey (key : Nat)
  deriving DecidableEq, Repr

/-- `HeaderObfuscator` (`packet.rs` 310-317) without `first_packet`. -/
structure Obf where
  inner : Option Nat
  expectedKey : Option Nat
  disabled : Bool
  clientIntendsDisable : Bool
  deriving DecidableEq, Repr

/-- `on_packet_received` (`packet.rs` 329-374): `none` is the error, otherwise the obfuscator, whether the packet may
be processed, and the packet. -/
def onPacketReceived (o : Obf) (packet : Bytes) : Option (Obf × Bool × Bytes) :=
  if o.disabled then some (o, true, packet)
  else match o.inner with
    | some val =>
      if packet.length < headerLen then some (o, false, packet)
      else some (o, true, applyCipher val true packet)
    | none =>
      if 16 ≤ packet.length then
        let key := fromBE (packet.take 16)
        let packet := packet.drop 16
        if key = 0 then none
        else if (match o.expectedKey with | some e => key != e | none => false) then none
        else if key = disabledKey then
          some ({ o with disabled := true, clientIntendsDisable := true }, false, packet)
        else some ({ o with inner := some key }, false, packet)
      else some (o, false, packet)

/-- `obfuscate_header` (`packet.rs` 380-397), also the body of `prepare_outbound` (400-403). -/
def obfuscateHeader (o : Obf) (packet : Bytes) : Obf × Bytes :=
  if o.clientIntendsDisable && o.disabled then (o, packet)
  else match o.inner with
    | some key =>
      if headerLen ≤ packet.length then
        ((if o.clientIntendsDisable then { o with disabled := true } else o), applyCipher key false packet)
      else (o, packet)
    | none => (o, packet)

/-- `new_client` (`packet.rs` 406-444): the obfuscator and its first packet; `none` when the hashed key is zero (the
`expect`). `random` is the generated key, `pad` the random bytes behind the key. -/
def newClient (hash : Nat → Nat) (random : Nat) (pad : Bytes) : Settings → Option (Obf × Bytes)
  | .disabled => some (⟨none, none, true, false⟩, toBE 16 disabledKey)
  | .enabled =>
    let key := hash random
    if key = 0 then none else some (⟨some key, none, false, false⟩, toBE 16 key ++ pad)
  | .withKey k =>
    let key := hash k
    if key = 0 then none else some (⟨some key, none, false, false⟩, toBE 16 key ++ pad)

/-- `new_server` (`packet.rs` 446-464). -/
def newServer (hash : Nat → Nat) : Settings → Option Obf
  | .enabled => some ⟨none, none, false, false⟩
  | .disabled => some ⟨none, none, false, false⟩
  | .withKey k =>
    let key := hash k
    if key = 0 then none else some ⟨some key, some key, false, false⟩

/-! ## The frames -/

/-- `OutboundPacket` (`outbound_sender.rs` 78-92); a flush carries the number of its acknowledgement channel. -/
inductive OutPacket
  | contiguous (buf : Bytes)
  | split (header payload : Bytes)
  | flush (ack : Nat)
  deriving DecidableEq, Repr

/-- `body_len` (`outbound_sender.rs` 96-102). -/
def OutPacket.bodyLen : OutPacket → Nat
  | .contiguous buf => buf.length
  | .split h p => h.length + p.length
  | .flush _ => 0

/-- `(body_len as u32).to_be_bytes()` (`direct_frame_writer.rs` 60). -/
def lenPrefix (n : Nat) : Bytes := toBE 4 n

/-- `write_raw_frame` (`direct_frame_writer.rs` 85-88). -/
def rawFrame (body : Bytes) : Bytes := lenPrefix body.length ++ body

/-- The bytes that `write_packet` (`direct_frame_writer.rs` 54-81) writes for a packet. -/
def packetBytes (o : Obf) : OutPacket → Obf × Bytes
  | .contiguous buf =>
    let r := obfuscateHeader o buf
    (r.1, lenPrefix (OutPacket.bodyLen (.contiguous buf)) ++ r.2)
  | .split h p =>
    let r := obfuscateHeader o h
    (r.1, lenPrefix (OutPacket.bodyLen (.split h p)) ++ (r.2 ++ p))
  | .flush _ => (o, [])

/-! ## The reader -/

/-- `max_frame_length` of the primary stream (`misc/mod.rs` 103). -/
def maxFrame : Nat := 1024 * 1024 * 64

/-- A `LengthDelimitedCodec` decoder with a four byte length field: the bytes read and not yet used, the length of the
frame whose head was read, whether it has failed. -/
structure Dec where
  buf : Bytes := []
  head : Option Nat := none
  dead : Bool := false
  deriving DecidableEq, Repr

/-- One call of `decode`: reads the head if there is none (a length above the maximum is an error), then the body. -/
def decodeData (d : Dec) (n : Nat) : Option Bytes × Dec :=
  if d.buf.length < n then (none, { d with head := some n })
  else (some (d.buf.take n), { d with buf := d.buf.drop n, head := none })

@[inherit_doc decodeData]
def decode (max : Nat) (d : Dec) : Option Bytes × Dec :=
  if d.dead then (none, d)
  else match d.head with
    | some n => decodeData d n
    | none =>
      if d.buf.length < 4 then (none, d)
      else
        let n := fromBE (d.buf.take 4)
        if max < n then (none, { d with dead := true })
        else decodeData { d with buf := d.buf.drop 4 } n

theorem decode_decreases {max : Nat} {d : Dec} {f : Bytes} {d' : Dec} (h : decode max d = (some f, d')) :
    d'.buf.length + (if d'.head.isSome then 1 else 0) < d.buf.length + (if d.head.isSome then 1 else 0) := by
  unfold decode decodeData at h
  cases d with
  | mk buf head dead =>
  cases head with
  | some n =>
    simp only at h
    split at h
    · simp at h
    · split at h
      · simp at h
      · simp only [Prod.mk.injEq, Option.some.injEq] at h
        rw [← h.2]; simp
        omega
  | none =>
    simp only at h
    split at h
    · simp at h
    · split at h
      · simp at h
      · split at h
        · simp at h
        · split at h
          · simp at h
          · simp only [Prod.mk.injEq, Option.some.injEq] at h
            rw [← h.2]; simp
            omega

/-- `FramedRead` hands out frames until the decoder wants more bytes. -/
def drain (max : Nat) (d : Dec) : List Bytes × Dec :=
  match _h : decode max d with
  | (none, d') => ([], d')
  | (some f, d') =>
    let r := drain max d'
    (f :: r.1, r.2)
termination_by d.buf.length + (if d.head.isSome then 1 else 0)
decreasing_by exact decode_decreases _h

/-- A chunk of bytes arrives. -/
def feed (max : Nat) (d : Dec) (chunk : Bytes) : List Bytes × Dec :=
  if d.dead then ([], d) else drain max { d with buf := d.buf ++ chunk }

/-- Chunks arrive one after the other. -/
def feedAll (max : Nat) : Dec → List Bytes → List Bytes × Dec
  | d, [] => ([], d)
  | d, c :: cs =>
    let r := feed max d c
    let r' := feedAll max r.2 cs
    (r.1 ++ r'.1, r'.2)

/-! ## The first packet of a connection -/

/-- `max_frame_length` of a codec built without settings. -/
def defaultMaxFrame : Nat := 8 * 1024 * 1024

/-- `read_one_packet_as_framed` (`misc/mod.rs` 127-139): chunks are read until there is a frame; `into_inner` gives the
stream back, without the bytes in the buffer of the codec. The result: the packet and the chunks that are left in the
stream. -/
def readOne : Dec → List Bytes → Option (Bytes × List Bytes)
  | _, [] => none
  | d, c :: cs =>
    match decode defaultMaxFrame { d with buf := d.buf ++ c } with
    | (some f, _) => some (f, cs)
    | (none, d') => if d'.dead then none else readOne d' cs

/-- The inbound stream (`session.rs` 1080-1095): every frame goes through the obfuscator; `Ok(false)` drops it, an
error ends the stream (`none`). The result: the obfuscator and the packets handed to the packet processor. -/
def inbound : Obf → List Bytes → Option (Obf × List Bytes)
  | o, [] => some (o, [])
  | o, b :: bs =>
    match onPacketReceived o b with
    | none => none
    | some (o', ok, b') =>
      match inbound o' bs with
      | none => none
      | some (o'', ps) => some (o'', if ok then b' :: ps else ps)

/-! ## A connection: two obfuscators and two directions -/

/-- Two ends. The lists `sentC`, `gotS`, … are ghosts: the bodies handed to `obfuscate_header` and the packets handed
to the packet processor. -/
structure Conn where
  client : Obf
  server : Obf
  toS : List Bytes
  toC : List Bytes
  sentC : List Bytes := []
  sentS : List Bytes := []
  gotS : List Bytes := []
  gotC : List Bytes := []
  /-- an end has ended its stream with an error -/
  broken : Bool := false
  /-- whether the server has read the first packet -/
  heard : Bool := false

/-- The body that is written for a packet (everything in `packetBytes` behind the length). -/
def bodyOf (o : Obf) : OutPacket → Obf × Bytes
  | .contiguous buf => obfuscateHeader o buf
  | .split h p => let r := obfuscateHeader o h; (r.1, r.2 ++ p)
  | .flush _ => (o, [])

/-- The body without any obfuscation. -/
def OutPacket.plain : OutPacket → Bytes
  | .contiguous buf => buf
  | .split h p => h ++ p
  | .flush _ => []

inductive Act
  | clientSend (p : OutPacket)
  | serverSend (p : OutPacket)
  | serverRecv
  | clientRecv

/-- Sending (`outbound_stream`) and receiving (`session.rs` 1080-1095: `Ok(false)` drops the packet, an error ends the
stream). The bodies travel in order (the frames are in `feedAll`). -/
def Conn.act (s : Conn) : Act → Conn
  | .clientSend p =>
    let r := bodyOf s.client p
    { s with client := r.1, toS := s.toS ++ [r.2], sentC := s.sentC ++ [p.plain] }
  | .serverSend p =>
    let r := bodyOf s.server p
    { s with server := r.1, toC := s.toC ++ [r.2], sentS := s.sentS ++ [p.plain] }
  | .serverRecv =>
    match s.toS with
    | [] => s
    | b :: rest =>
      match onPacketReceived s.server b with
      | none => { s with toS := rest, broken := true, heard := true }
      | some (o, ok, b') =>
        { s with server := o, toS := rest, heard := true, gotS := if ok then s.gotS ++ [b'] else s.gotS }
  | .clientRecv =>
    match s.toC with
    | [] => s
    | b :: rest =>
      match onPacketReceived s.client b with
      | none => { s with toC := rest, broken := true }
      | some (o, ok, b') =>
        { s with client := o, toC := rest, gotC := if ok then s.gotC ++ [b'] else s.gotC }

def Conn.run (s : Conn) (as : List Act) : Conn := as.foldl Conn.act s

/-- A connection starts with the first packet of the client on its way (`session.rs` 826-837). -/
def Conn.start (client : Obf × Bytes) (server : Obf) : Conn :=
  { client := client.1, server := server, toS := [client.2], toC := [] }

/-! ## The outbound loop -/

/-- Where `outbound_stream` is: waiting for a packet, or draining a burst (with the number drained). -/
inductive Pc
  | wait
  | drain (burst : Nat)
  deriving DecidableEq, Repr

/-- `OUTBOUND_FLUSH_BURST` (`session.rs` 845). -/
def burstMax : Nat := 32

structure Loop where
  obf : Obf
  queue : List OutPacket := []
  pc : Pc := .wait
  /-- bytes at the socket -/
  wire : Bytes := []
  /-- bytes written and not flushed -/
  buf : Bytes := []
  acks : List Nat := []
  /-- ghost: everything queued -/
  pushed : List OutPacket := []
  /-- ghost: what was written for each packet taken from the queue, with the packet -/
  done : List (OutPacket × Bytes) := []

/-- `write_packet` (`direct_frame_writer.rs` 54-81) on the loop. -/
def Loop.write (s : Loop) (p : OutPacket) : Loop :=
  let r := packetBytes s.obf p
  match p with
  | .flush a =>
    { s with wire := s.wire ++ s.buf, buf := [], acks := s.acks ++ [a], done := s.done ++ [(p, [])] }
  | _ => { s with obf := r.1, buf := s.buf ++ r.2, done := s.done ++ [(p, r.2)] }

inductive LAct
  /-- somebody queues a packet -/
  | push (p : OutPacket)
  /-- the loop takes its next step -/
  | turn
  /-- the transport sends some of its bytes on its own -/
  | spill (n : Nat)
  /-- the reader half changes the shared cells of the obfuscator -/
  | obf (o : Obf)

/-- `outbound_stream` (`session.rs` 847-872). -/
def Loop.act (s : Loop) : LAct → Loop
  | .push p => { s with queue := s.queue ++ [p], pushed := s.pushed ++ [p] }
  | .spill n => { s with wire := s.wire ++ s.buf.take n, buf := s.buf.drop n }
  | .obf o => { s with obf := o }
  | .turn =>
    match s.pc with
    | .wait =>
      match s.queue with
      | [] => s
      | p :: q => { s with queue := q, pc := .drain 0 }.write p
    | .drain n =>
      match s.queue with
      | [] => { s with wire := s.wire ++ s.buf, buf := [], pc := .wait }
      | p :: q =>
        if n < burstMax then { s with queue := q, pc := .drain (n + 1) }.write p
        else { s with wire := s.wire ++ s.buf, buf := [], pc := .wait }

def Loop.run (s : Loop) (as : List LAct) : Loop := as.foldl Loop.act s

/-- The loop after the first packet (if there is one) was written and flushed. -/
def Loop.start (o : Obf) (first : Option Bytes) : Loop :=
  { obf := o, wire := match first with | some b => rawFrame b | none => [] }

end Verif.Wire

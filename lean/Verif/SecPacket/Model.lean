import Verif.Common.Bytes

/-
Model of partitioned buffers and secure message packets.
Source: /repo/citadel_crypt/src/secure_buffer/partitioned_sec_buffer.rs and
/repo/citadel_crypt/src/secure_buffer/sec_packet.rs.

Simplifications: memory allocation and zeroing on drop are left out; `usize` has 64 bits, so `u32 as usize` keeps the value
and sums of buffer lengths do not overflow. Sums of `u32`s are checked or wrapping, as chosen by the build profile (`checks`).
-/
namespace Verif.SecPacket

/-- Outcome of a call: value, `std::io::Error`, or panic. -/
inductive Res (α : Type) where
  | ok (a : α)
  | err
  | panic
deriving DecidableEq, Repr

def Res.bind {α β : Type} : Res α → (α → Res β) → Res β
  | .ok a, f => f a
  | .err, _ => .err
  | .panic, _ => .panic

/-- `PartitionedSecBuffer<N>`, partitioned_sec_buffer.rs lines 66-70; `N` is the length of `layout`. -/
structure PBuf where
  layout : List Nat
  buffer : Bytes
deriving DecidableEq, Repr

/-- `new`, lines 78-90. -/
def newBuf (n : Nat) : Res PBuf := if n ≠ 0 then .ok ⟨List.replicate n 0, []⟩ else .err

/-- `check_reserve`, lines 185-216. -/
def reservable (p : PBuf) (idx : Nat) : Bool :=
  decide (idx < p.layout.length) && decide (p.layout.getD idx 0 = 0) &&
    (p.layout.take idx).all (fun l => decide (l ≠ 0)) && (p.layout.drop idx).all (fun l => decide (l = 0))

/-- `reserve_partition`, lines 103-113. -/
def reserve (p : PBuf) (idx len : Nat) : Res PBuf :=
  if reservable p idx then .ok ⟨p.layout.set idx len, p.buffer ++ List.replicate len 0⟩ else .err

/-- `iter().sum::<u32>()`: panics on overflow with overflow checks, wraps without. -/
def sumU32 (checks : Bool) (l : List Nat) : Res Nat :=
  if l.sum < 2 ^ 32 then .ok l.sum else if checks then .panic else .ok (l.sum % 2 ^ 32)

/-- `get_range`, lines 141-155. -/
def range (checks : Bool) (p : PBuf) (idx : Nat) : Res (Nat × Nat) :=
  if idx < p.layout.length then
    (sumU32 checks (p.layout.take idx)).bind fun start =>
      .ok (start, if idx + 1 = p.layout.length then p.buffer.length else start + p.layout.getD idx 0)
  else .err

/-- Reading through a `SliceHandle`, lines 235-241: slicing panics outside the buffer. -/
def readWindow (checks : Bool) (p : PBuf) (idx : Nat) : Res Bytes :=
  (range checks p idx).bind fun r =>
    if r.1 ≤ r.2 ∧ r.2 ≤ p.buffer.length then .ok ((p.buffer.drop r.1).take (r.2 - r.1)) else .panic

/-- A closure `FnOnce(&mut [u8]) -> io::Result<()>`: the new contents of the slice (of the same length) or an error. -/
abbrev Writer := Bytes → Res Bytes

/-- `slice.copy_from_slice(data)`. -/
def copyFrom (data : Bytes) : Writer := fun s => if s.length = data.length then .ok data else .panic

/-- Writing through a `SliceHandle`, lines 243-247. -/
def writeWindow (checks : Bool) (p : PBuf) (idx : Nat) (fx : Writer) : Res PBuf :=
  (range checks p idx).bind fun r =>
    if r.1 ≤ r.2 ∧ r.2 ≤ p.buffer.length then
      (fx ((p.buffer.drop r.1).take (r.2 - r.1))).bind fun out =>
        .ok { p with buffer := p.buffer.take r.1 ++ out ++ p.buffer.drop r.2 }
    else .panic

/-- `SecureMessagePacket`, sec_packet.rs lines 130-134. -/
inductive Packet where
  | payloadNext (p : PBuf)
  | headerNext (p : PBuf)
  | final (p : PBuf)
deriving DecidableEq, Repr

/-- `SecureMessagePacket::<N>::new`, lines 138-142; `N as u32` truncates. -/
def newPacket (n : Nat) : Res Packet :=
  (newBuf 3).bind fun p => (reserve p 0 (n % 2 ^ 32)).bind fun p => .ok (.payloadNext p)

/-- `write_payload`, lines 174-204; `len : u32`. -/
def writePayload (checks : Bool) (k : Packet) (len : Nat) (fx : Writer) : Res Packet :=
  match k with
  | .payloadNext p =>
    if len + 4 < 2 ^ 32 then
      (reserve p 1 (len + 4)).bind fun p =>
        (writeWindow checks p 1 (fun s =>
          if 4 ≤ s.length then (fx (s.drop 4)).bind fun out => .ok (toBE 4 len ++ out) else .panic)).bind fun p =>
            .ok (.headerNext p)
    else .err
  | _ => .err

/-- `write_header`, lines 207-223. -/
def writeHeader (checks : Bool) (k : Packet) (fx : Writer) : Res Packet :=
  match k with
  | .headerNext p => (writeWindow checks p 0 fx).bind fun p => .ok (.final p)
  | _ => .err

/-- `write_payload_extension`, lines 230-251. -/
def writeExtension (checks : Bool) (k : Packet) (len : Nat) (fx : Writer) : Res Bytes :=
  match k with
  | .final p =>
    if len = 0 then .ok p.buffer
    else (reserve p 2 len).bind fun p => (writeWindow checks p 2 fx).bind fun p => .ok p.buffer
  | _ => .err

/-- `extract_payload`, lines 151-171: the result and what is left of `input`. -/
def extractPayload (input : Bytes) : Option Bytes × Bytes :=
  if input.length < 4 then (none, input)
  else
    let len := fromBE (input.take 4)
    let rest := input.drop 4
    if rest.length < len then (none, rest) else (some (rest.take len), rest.drop len)

/-- `decompose_payload_raw`, lines 145-148. -/
def decompose (input : Bytes) : Option (Bytes × Bytes) :=
  match extractPayload input with
  | (some payload, rest) => some (payload, rest)
  | (none, _) => none

/-- The writing sequence of a message: payload, header, extension. -/
def build (checks : Bool) (n : Nat) (payload header ext : Bytes) : Res Bytes :=
  (newPacket n).bind fun k =>
    (writePayload checks k payload.length (copyFrom payload)).bind fun k =>
      (writeHeader checks k (copyFrom header)).bind fun k =>
        writeExtension checks k ext.length (copyFrom ext)

end Verif.SecPacket

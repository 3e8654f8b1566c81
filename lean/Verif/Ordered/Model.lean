import Verif.Common.AssocMap
/-
Model of the ordered channel.
Source: /repo/citadel_crypt/src/ordered_channel.rs lines 35-149.

Ids are `u64`s written as `Nat` with explicit wrap-around. The sink (an unbounded tokio channel whose receiver is
alive) is the list of everything sent so far; the send error of a dropped receiver and the "last received
instant" bookkeeping are left out. The state mutex makes each call atomic.
-/
namespace Verif.Ordered
open Verif

variable {T : Type}

/-- `u64::wrapping_add(1)`. -/
def wsucc (n : Nat) : Nat := (n + 1) % 2 ^ 64

/-- `OrderedChannelState` (lines 36-41) together with the sink's contents. -/
structure Chan (T : Type) where
  map : AMap Nat T
  last : Option Nat
  out : List T

/-- `OrderedChannel::new`, lines 50-59. -/
def new : Chan T := { map := [], last := none, out := [] }

/-- `send_unconditional`, lines 140-149. -/
def sendUnconditional (c : Chan T) (id : Nat) (p : T) : Chan T :=
  { c with out := c.out ++ [p], last := some id }

/-- `scan_send`, lines 125-138: the `while let` loop. Each iteration removes an entry, so the number of entries
is enough fuel. -/
def scanSend : Nat → Chan T → Nat → Chan T
  | 0, c, _ => c
  | fuel + 1, c, cur =>
    match c.map.get? cur with
    | none => c
    | some p => scanSend fuel (sendUnconditional { c with map := c.map.erase cur } cur p) (wsucc cur)

/-- `send_then_scan`, lines 110-122. -/
def sendThenScan (c : Chan T) (id : Nat) (p : T) : Chan T :=
  let c := sendUnconditional c id p
  if c.map ≠ [] then scanSend c.map.length c (wsucc id) else c

/-- `is_already_delivered`, lines 95-100. -/
def isAlreadyDelivered : Option Nat → Nat → Bool
  | some last, id => decide (id ≤ last)
  | none, _ => false

/-- `next_expected_message_id`, lines 69-72. -/
def nextExpected (c : Chan T) : Nat :=
  match c.last with
  | some r => wsucc r
  | none => 0

/-- `on_packet_received`, lines 62-91. -/
def onPacketReceived (c : Chan T) (id : Nat) (p : T) : Chan T :=
  if nextExpected c = id then sendThenScan c id p
  else if isAlreadyDelivered c.last id then c
  else { c with map := c.map.insert id p }

/-- All arrivals in order. -/
def run (c : Chan T) : List (Nat × T) → Chan T
  | [] => c
  | a :: as => run (onPacketReceived c a.1 a.2) as

end Verif.Ordered

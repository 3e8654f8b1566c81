/-
The transfer of one file: how the sender walks through the groups of the file and how the receiver puts them together
and decides that the file is complete.

Source:
  /repo/citadel_crypt/src/scramble/streaming_crypt_scrambler.rs lines 190-282, 350-420 (cutting a file into groups),
  /repo/citadel_proto/src/proto/session.rs lines 1404-1893 (`process_outbound_file`),
  /repo/citadel_proto/src/proto/state_container/outbound_transfer.rs lines 119-257 (acknowledgements at the sender),
  /repo/citadel_proto/src/proto/state_container/inbound_transfer.rs (`on_group_header_received`,
    `on_file_header_received`, `on_group_payload_received`),
  /repo/citadel_proto/src/proto/packet_processor/primary_group_packet.rs lines 122-335, 337-460.

Simplifications:
* The model starts when the receiver has accepted the file (its entry of `inbound_files` exists and the sender got a
  positive `FILE_HEADER_ACK`).  Refusal, timeouts and lost connections are not modelled.
* The packets of one wave are one message; cutting a group into waves and putting them together again is the subject of
  `Verif.Splitter`.  A wave is the piece of the plaintext it carries.
* Encryption is left out: the packets between honest endpoints decrypt (`Verif.Rekey.Wire`, `Verif.SecPacket`).
* Both directions are reliable and ordered (TCP/TLS/QUIC stream), and an endpoint handles the packets in the order of
  arrival: the handlers of group packets do not suspend.
* "At least two thirds of the packets are acknowledged" (`is_atleast_fifty_percent_done`) is a free choice `early` of
  the scheduler at every acknowledgement which is not the last one.
* Ids are unbounded numbers instead of `u64`.
* There is one file at a time; entries of other files have other keys (the object id is part of every key).
-/
namespace Verif.Transfer

abbrev Bytes := List UInt8

/-- `total_groups`: streaming_crypt_scrambler.rs line 232 (`Integer::div_ceil`). -/
def groupCount (size len : Nat) : Nat := (len + size - 1) / size

/-- The contents of the groups: `poll_scramble_next_group` takes `min(remaining, max_bytes_per_group)` bytes until
nothing remains; streaming_crypt_scrambler.rs lines 379-420. -/
def cut (size : Nat) (l : List UInt8) : List (List UInt8) :=
  if _h : l = [] ∨ size = 0 then [] else l.take size :: cut size (l.drop size)
termination_by l.length
decreasing_by
  simp only [not_or] at _h
  have := List.length_pos_iff.mpr _h.1
  simp only [List.length_drop]; omega

/-- A transfer: the id of its first group and its groups, each of them a list of waves. -/
structure Cfg where
  /-- `group_id_start`: the value of a counter of the session, session.rs lines 1475, 1579-1582. -/
  start : Nat
  groups : List (List Bytes)
deriving DecidableEq, Repr

/-- `metadata.group_count`, which the sender announces in the file header. -/
def Cfg.n (c : Cfg) : Nat := c.groups.length

/-- The waves of a group. -/
def Cfg.waves (c : Cfg) (i : Nat) : List Bytes := c.groups.getD i []

/-- The file. -/
def Cfg.content (c : Cfg) : Bytes := (c.groups.map List.flatten).flatten

/-- From the sender to the receiver. -/
inductive Down where
  /-- `GROUP_HEADER` with the number of waves of the group (part of `GroupReceiverConfig`). -/
  | hdr (gid waves : Nat)
  /-- The `GROUP_PAYLOAD` packets of one wave. -/
  | wave (gid : Nat) (data : Bytes)
deriving DecidableEq, Repr

/-- From the receiver to the sender. -/
inductive Up where
  /-- `GROUP_HEADER_ACK`: `ReadyToReceive` or `NotReady`. -/
  | hack (gid : Nat) (ok : Bool)
  /-- `WAVE_ACK`. -/
  | wack (gid : Nat)
deriving DecidableEq, Repr

/-- The group a message belongs to. -/
def Up.gid : Up → Nat
  | .hack g _ => g
  | .wack g => g

/-- `OutboundTransmitterContainer`. -/
structure Trans where
  /-- `relative_group_id`. -/
  rel : Nat
  /-- The waves acknowledged so far (`packets_received`). -/
  acked : Nat
  /-- Whether `object_notifier` has not been taken yet. -/
  notifier : Bool
deriving DecidableEq, Repr

/-- What the sender tells its user. -/
inductive Status where
  | tick (rel : Nat)
  | complete
deriving DecidableEq, Repr

/-- The sender. -/
structure Snd where
  /-- `relative_group_id` of the loop: the groups started so far. -/
  nxt : Nat
  /-- The loop waits at `next_gs_alerter_rx.next()`. -/
  wait : Bool
  /-- Signals in the channel `next_gs_alerter`. -/
  tokens : Nat
  /-- `outbound_transmitters` for this object. -/
  trans : Nat → Option Trans
  said : List Status
  /-- `OutboundRequestRejected` was reported. -/
  rejected : Bool
  /-- `on_group_header_ack_received` unwrapped a missing transmitter. -/
  panicked : Bool
  /-- `post_close_hook` has run. -/
  hook : Bool

/-- The receiver. -/
structure Rcv where
  /-- The entry of `inbound_files` exists. -/
  file : Bool
  /-- `inbound_groups` for this object: number of waves and waves received. -/
  groups : Nat → Option (Nat × List Bytes)
  /-- The chunks given to the backend (`stream_to_hd`), in this order. -/
  disk : List Bytes
  /-- `reception_complete_tx` was signalled with a packet of this group. -/
  done : Option Nat
  /-- A handler returned an error. -/
  err : Bool

/-- Insert, overwrite or remove one entry. -/
def upd {α : Type} (f : Nat → Option α) (k : Nat) (v : Option α) : Nat → Option α :=
  fun x => if x = k then v else f x

/-- `on_group_header_received` and the answer (inbound_transfer.rs lines 11-79, primary_group_packet.rs lines
230-333); `on_group_payload_received` for the last packet of a wave (inbound_transfer.rs lines 287-505). `n` is the
`total_groups` of the entry of `inbound_files`. -/
def recv (n : Nat) (r : Rcv) : Down → Rcv × List Up
  | .hdr gid w =>
    match r.groups gid with
    | some _ => (r, [.hack gid false])
    | none =>
      if r.file then ({ r with groups := upd r.groups gid (some (w, [])) }, [.hack gid true])
      else (r, [.hack gid false])
  | .wave gid b =>
    match r.groups gid with
    | none => ({ r with err := true }, [])
    | some (w, got) =>
      if got.length + 1 = w then
        if r.file then
          if gid ≥ n - 1 then
            ({ r with groups := upd r.groups gid none, disk := r.disk ++ [(got ++ [b]).flatten],
                      file := false, done := some gid }, [])
          else
            ({ r with groups := upd r.groups gid none, disk := r.disk ++ [(got ++ [b]).flatten] }, [.wack gid])
        else ({ r with groups := upd r.groups gid none, err := true }, [])
      else ({ r with groups := upd r.groups gid (some (w, got ++ [b])) }, [.wack gid])

/-- `on_group_header_ack_received` (outbound_transfer.rs lines 121-143), the `NotReady` branch
(primary_group_packet.rs lines 390-420) and `on_wave_ack_received` (outbound_transfer.rs lines 151-257). -/
def hear (c : Cfg) (s : Snd) (early : Bool) : Up → Snd × List Down
  | .hack gid true =>
    match s.trans gid with
    | none => ({ s with panicked := true }, [])
    | some t => (s, (c.waves t.rel).map (.wave gid))
  | .hack gid false => ({ s with trans := upd s.trans gid none, rejected := true }, [])
  | .wack gid =>
    match s.trans gid with
    | none => (s, [])
    | some t =>
      if t.acked + 1 = (c.waves t.rel).length then
        ({ s with trans := upd s.trans gid none, tokens := s.tokens + (if t.notifier then 1 else 0)
                  said := s.said ++ [if t.rel ≠ c.n - 1 then .tick t.rel else .complete] }, [])
      else if early && t.notifier then
        ({ s with trans := upd s.trans gid (some { t with acked := t.acked + 1, notifier := false })
                  tokens := s.tokens + 1 }, [])
      else ({ s with trans := upd s.trans gid (some { t with acked := t.acked + 1 }) }, [])

/-- Both endpoints and the two directions of the connection. -/
structure St where
  s : Snd
  r : Rcv
  toR : List Down
  toS : List Up
  /-- `ObjectTransferStatus::ReceptionComplete` was reported by the receiver. -/
  reported : Bool

/-- After the file was accepted. -/
def init : St :=
  { s := { nxt := 0, wait := false, tokens := 0, trans := fun _ => none, said := [], rejected := false,
           panicked := false, hook := false }
    r := { file := true, groups := fun _ => none, disk := [], done := none, err := false }
    toR := [], toS := [], reported := false }

/-- One step of one of the tasks. -/
inductive Step (c : Cfg) : St → St → Prop where
  /-- The loop of `process_outbound_file` takes the next group: session.rs lines 1730-1804. -/
  | send (x : St) (hw : x.s.wait = false) (hn : x.s.nxt < c.n) :
      Step c x { x with
        s := { x.s with
          nxt := x.s.nxt + 1, wait := true
          trans := upd x.s.trans (c.start + x.s.nxt) (some ⟨x.s.nxt, 0, true⟩) }
        toR := x.toR ++ [.hdr (c.start + x.s.nxt) (c.waves x.s.nxt).length] }
  /-- The loop is woken: session.rs lines 1867-1870. -/
  | wake (x : St) (hw : x.s.wait = true) (ht : 0 < x.s.tokens) :
      Step c x { x with s := { x.s with wait := false, tokens := x.s.tokens - 1 } }
  /-- No group is left: the hook runs, session.rs line 1889. -/
  | hook (x : St) (hw : x.s.wait = false) (hn : x.s.nxt = c.n) (hh : x.s.hook = false) :
      Step c x { x with s := { x.s with hook := true } }
  /-- The receiver handles a packet. -/
  | recv (x : St) (m : Down) (rest : List Down) (h : x.toR = m :: rest) :
      Step c x { x with r := (recv c.n x.r m).1, toR := rest, toS := x.toS ++ (recv c.n x.r m).2 }
  /-- The backend has written everything: the last acknowledgement is sent and the user is told; inbound_transfer.rs
  lines 205-243. -/
  | finish (x : St) (gid : Nat) (h : x.r.done = some gid) (hr : x.reported = false) :
      Step c x { x with reported := true, toS := x.toS ++ [.wack gid] }
  /-- The sender handles a packet. -/
  | hear (x : St) (m : Up) (rest : List Up) (early : Bool) (h : x.toS = m :: rest) :
      Step c x { x with s := (hear c x.s early m).1, toS := rest, toR := x.toR ++ (hear c x.s early m).2 }

/-- The states of all executions. -/
inductive Reach (c : Cfg) : St → Prop where
  | init : Reach c init
  | step {x y : St} : Reach c x → Step c x y → Reach c y

/-- What the receiver has stored. -/
def St.stored (x : St) : Bytes := x.r.disk.flatten

/-- Every group has a wave: a group holds at least one byte and so needs at least one packet. -/
def Cfg.WF (c : Cfg) : Prop := ∀ g ∈ c.groups, g ≠ [] ∧ g.flatten ≠ []

end Verif.Transfer

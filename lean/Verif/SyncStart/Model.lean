/-!
# Synchronised start: `netbeam/src/sync/sync_start.rs`

`synchronize` (lines 157-228) on both ends of one subscription of a multiplexed connection, with
the time at which each end reads its clock, and with the loss of the connection.

Simplifications:
* the subscription is open on both ends (`initiate_subscription` is the subject of C45 and C52);
* real time is an integer number of nanoseconds; a clock is any function from real time to the
  reading of `TimeTracker::get_global_time_ns` (time_tracker.rs 60-87, wall clock);
* readings and their sums and differences stay in the range of `i64`; the cast of a duration from
  `i64` to `u64` is modelled;
* a sleep ends at its time or later;
* a packet that is sent on a lost connection is either reported as an error or lost;
* the task that fills the mailbox of the subscription (network_application.rs 146-152) ends when
  the connection is lost; the sender of the mailbox stays in the map of the connection, so the
  mailbox is not closed (subscription.rs 122-132 then waits).
-/
namespace Verif.SyncStart

/-- sync_start.rs 119-124; `other` is any packet that cannot be read as a `SyncPacket`. -/
inductive Msg where
  | syn (p : Nat)
  | synAck (p : Nat)
  | ack (ts : Int)
  | other
deriving DecidableEq, Repr

/-- Positions of the receiver in lines 183-203. -/
inductive RPc where
  | start
  | timed (a : Int)
  | sent (a : Int)
  | acked (a : Int) (p : Nat)
  | measured (rtt : Int) (p : Nat)
  | planned (rtt ts : Int) (p : Nat)
  | confirmed (rtt : Int) (p : Nat)
  | asleep (till : Int) (p : Nat)
  | ran (at_ : Int) (p : Nat)
  | failed
deriving DecidableEq, Repr

/-- Positions of the initiator in lines 205-227. -/
inductive IPc where
  | start
  | gotSyn (p : Nat)
  | sent (p : Nat)
  | gotAck (ts : Int) (p : Nat)
  | early (ts : Int) (p : Nat)
  | slept (delta : Int) (p : Nat)
  | asleep (till : Int) (p : Nat)
  | ready (p : Nat)
  | ran (at_ : Int) (p : Nat)
  | failed
deriving DecidableEq, Repr

/-- `x as u64` of an `i64`. -/
def toU64 (x : Int) : Int := x % 18446744073709551616

structure Cfg where
  payR : Nat
  payI : Nat
  clkR : Int → Int
  clkI : Int → Int

structure St where
  t : Int
  up : Bool
  r : RPc
  i : IPc
  /-- packets under way and in the mailbox, to each end -/
  netR : List Msg
  boxR : List Msg
  netI : List Msg
  boxI : List Msg
  /-- history: packets sent by each end and taken out of the mailbox of each end -/
  sentR : List Msg
  sentI : List Msg
  takenR : List Msg
  takenI : List Msg

def St.init (t : Int) : St :=
  { t := t, up := true, r := .start, i := .start, netR := [], boxR := [], netI := [], boxI := [],
    sentR := [], sentI := [], takenR := [], takenI := [] }

inductive Act where
  /-- time passes -/
  | tick (d : Nat)
  /-- the next step of an end; the flag says whether an error of the send is seen if the
  connection is lost -/
  | stepR (seen : Bool)
  | stepI (seen : Bool)
  /-- `forward_packet` -/
  | fwdR
  | fwdI
  | lose
deriving DecidableEq, Repr

def sendR (s : St) (seen : Bool) (m : Msg) (next : RPc) : St :=
  if s.up then { s with netI := s.netI ++ [m], sentR := s.sentR ++ [m], r := next }
  else if seen then { s with r := .failed } else { s with sentR := s.sentR ++ [m], r := next }

def sendI (s : St) (seen : Bool) (m : Msg) (next : IPc) : St :=
  if s.up then { s with netR := s.netR ++ [m], sentI := s.sentI ++ [m], i := next }
  else if seen then { s with i := .failed } else { s with sentI := s.sentI ++ [m], i := next }

/-- `recv_until_serialized` (reliable_conn.rs 113-130) takes packets until one fits. -/
def takeR (s : St) (f : Msg → Option RPc) : St :=
  match s.boxR with
  | [] => s
  | m :: q => { s with boxR := q, takenR := s.takenR ++ [m], r := (f m).getD s.r }

def takeI (s : St) (f : Msg → Option IPc) : St :=
  match s.boxI with
  | [] => s
  | m :: q => { s with boxI := q, takenI := s.takenI ++ [m], i := (f m).getD s.i }

/-- Lines 183-203. -/
def stepR (c : Cfg) (s : St) (seen : Bool) : St :=
  match s.r with
  | .start => { s with r := .timed (c.clkR s.t) }
  | .timed a => sendR s seen (.syn c.payR) (.sent a)
  | .sent a => takeR s fun
      | .synAck p => some (.acked a p)
      | _ => none
  | .acked a p => { s with r := .measured (c.clkR s.t - a) p }
  | .measured rtt p => { s with r := .planned rtt (c.clkR s.t + rtt) p }
  | .planned rtt ts p => sendR s seen (.ack ts) (.confirmed rtt p)
  | .confirmed rtt p => { s with r := .asleep (s.t + toU64 rtt) p }
  | .asleep till p => if till ≤ s.t then { s with r := .ran s.t p } else s
  | .ran _ _ => s
  | .failed => s

/-- Lines 205-227. -/
def stepI (c : Cfg) (s : St) (seen : Bool) : St :=
  match s.i with
  | .start => takeI s fun
      | .syn p => some (.gotSyn p)
      | _ => none
  | .gotSyn p => sendI s seen (.synAck c.payI) (.sent p)
  | .sent p => takeI s fun
      | .ack ts => some (.gotAck ts p)
      | _ => none
  | .gotAck ts p => if c.clkI s.t < ts then { s with i := .early ts p } else { s with i := .ready p }
  | .early ts p => { s with i := .slept ((ts - c.clkI s.t).natAbs : Int) p }
  | .slept delta p => { s with i := .asleep (s.t + toU64 delta) p }
  | .asleep till p => if till ≤ s.t then { s with i := .ran s.t p } else s
  | .ready p => { s with i := .ran s.t p }
  | .ran _ _ => s
  | .failed => s

def step (c : Cfg) (s : St) : Act → St
  | .tick d => { s with t := s.t + d }
  | .stepR seen => stepR c s seen
  | .stepI seen => stepI c s seen
  | .fwdR =>
      match s.netR with
      | [] => s
      | m :: q => if s.up then { s with netR := q, boxR := s.boxR ++ [m] } else s
  | .fwdI =>
      match s.netI with
      | [] => s
      | m :: q => if s.up then { s with netI := q, boxI := s.boxI ++ [m] } else s
  | .lose => { s with up := false, netR := [], netI := [] }

def run (c : Cfg) (s : St) (as : List Act) : St := as.foldl (step c) s

end Verif.SyncStart

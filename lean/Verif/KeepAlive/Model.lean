/-!
# Keep alives

The keep alive packets of a session between a client and its server. One packet travels back and forth: each end
holds it for fifteen minutes (`keep_alive_packet.rs`), notes when it came (`state_container/monitoring.rs`) and
checks every fifteen minutes whether it is missing (`session.rs` 1224-1245).

Simplifications:
* time is a number of nanoseconds since the login; the wall clock of an end is this time plus a constant
  (clocks that are set during the session are not modelled), the monotonic clock is this time;
* a packet arrives at most `lat` after it was sent, and a task runs at most `jit` after it is due; time does not
  pass beyond these limits (`tick`), both limits are parameters;
* both ends are connected (state `Connected`) and stay so until one of them ends the session;
* `i64` additions do not overflow, except in the conversion of the timeout (`timeoutOf`);
* the ping and jitter statistics are left out, they are not used.
-/
namespace Verif.KeepAlive

/-- constants.rs 56, `KEEP_ALIVE_INTERVAL_MS`, in nanoseconds. -/
def interval : Int := 15 * 60 * 1000000000

/-- constants.rs 58, `KEEP_ALIVE_TIMEOUT_NS`. -/
def defaultTimeout : Int := 3 * interval

/-- constants.rs 71, `GROUP_EXPIRE_TIME_MS`, in nanoseconds. -/
def metaExpire : Int := 60 * 1000000000

/-- `i64` from a number that does not fit. -/
def wrap (x : Int) : Int := (x + 2 ^ 63) % 2 ^ 64 - 2 ^ 63

/-- remote_ext.rs 321 (`as_secs`), node.rs 510, session_manager.rs 460: the timeout of the session from that of the
call, in seconds. -/
def timeoutOf : Option Nat → Int
  | none => defaultTimeout
  | some secs => wrap (wrap secs * 1000000000)

/-- The ends of the session. -/
inductive Side where
  | client
  | server
deriving DecidableEq, Repr

def Side.other : Side → Side
  | .client => .server
  | .server => .client

structure Cfg where
  /-- `keep_alive_timeout_ns`; preconnect_packet.rs 153: the server takes that of the client -/
  timeout : Int
  /-- the wall clock of this end is the time plus this -/
  off : Side → Int
  lat : Int
  jit : Int

structure End where
  /-- `network_stats.last_keep_alive` -/
  lastKa : Option Int
  /-- meta_expiry_container.rs, `last_valid_ns` -/
  lastValid : Int
  /-- deadline of `KEEP_ALIVE_CHECKER` -/
  nextCheck : Int
  /-- this end has ended the session -/
  ended : Bool
deriving DecidableEq, Repr

/-- Where the keep alive packet is. -/
inductive Tok where
  | flight (to : Side) (ts sent : Int)
  | held (by_ : Side) (ts due : Int)
  | gone
deriving DecidableEq, Repr

structure St where
  now : Int
  ends : Side → End
  tok : Tok

def setEnd (f : Side → End) (p : Side) (e : End) : Side → End := fun q => if q = p then e else f q

/-- meta_expiry_container.rs 43-47, `expired`. -/
def metaExpired (e : End) (now : Int) : Bool := decide (now - e.lastValid > metaExpire)

/-- monitoring.rs 9-52, `on_keep_alive_received`. -/
def onKeepAlive (timeout : Int) (e : End) (ts clock : Int) (expired : Bool) : Bool × End :=
  if timeout = 0 then (true, e)
  else
    let ping := clock - ts
    let clock' := if ping < 0 then clock - ping else clock
    let ping' := if ping < 0 then -ping else ping
    match e.lastKa with
    | some _ =>
      if ping' > timeout then (!expired, { e with lastKa := none })
      else (true, { e with lastKa := some clock' })
    | none => (true, { e with lastKa := some clock' })

/-- monitoring.rs 55-62, `keep_alive_subsystem_timed_out`. -/
def timedOut (timeout : Int) (e : End) (clock : Int) : Bool :=
  match e.lastKa with
  | some prev => decide (clock - prev > timeout)
  | none => false

/-- session.rs 1224-1245, the function of `KEEP_ALIVE_CHECKER`: whether it ends the session. -/
def checkEnds (timeout : Int) (e : End) (clock now : Int) : Bool :=
  if timeout ≠ 0 then timedOut timeout e clock && metaExpired e now else false

inductive Act where
  | tick (d : Nat)
  /-- the packet arrives, keep_alive_packet.rs 76-127 -/
  | deliver
  /-- the sleep is over and the packet is sent, keep_alive_packet.rs 99-109 -/
  | send
  /-- the checker of an end is due -/
  | check (p : Side)
  /-- an end confirms another packet (`on_event_confirmation`) -/
  | activity (p : Side)
  /-- an end disappears without a word -/
  | die (p : Side)
  /-- the network is cut and the packet does not arrive -/
  | lose
deriving DecidableEq, Repr

/-- How far time may go. -/
def inTime (c : Cfg) (s : St) (t : Int) : Bool :=
  (match s.tok with
    | .flight _ _ sent => decide (t ≤ sent + c.lat)
    | .held _ _ due => decide (t ≤ due + c.jit)
    | .gone => true) &&
  ((s.ends .client).ended || decide (t ≤ (s.ends .client).nextCheck + c.jit)) &&
  ((s.ends .server).ended || decide (t ≤ (s.ends .server).nextCheck + c.jit))

def step (c : Cfg) (s : St) : Act → St
  | .tick d => if inTime c s (s.now + d) then { s with now := s.now + d } else s
  | .deliver =>
    match s.tok with
    | .flight p ts _ =>
      let e := s.ends p
      if e.ended then { s with tok := .gone }
      else
        let clock := s.now + c.off p
        let expired := metaExpired e s.now
        let res := onKeepAlive c.timeout e ts clock expired
        if res.1 || !expired then
          { s with ends := setEnd s.ends p res.2, tok := .held p (clock + interval) (s.now + interval) }
        else { s with ends := setEnd s.ends p { res.2 with ended := true }, tok := .gone }
    | _ => s
  | .send =>
    match s.tok with
    | .held p ts due =>
      if s.now < due then s
      else if (s.ends p).ended then { s with tok := .gone }
      else { s with tok := .flight p.other ts s.now }
    | _ => s
  | .check p =>
    let e := s.ends p
    if e.ended || decide (s.now < e.nextCheck) then s
    else if checkEnds c.timeout e (s.now + c.off p) s.now then { s with ends := setEnd s.ends p { e with ended := true } }
    else { s with ends := setEnd s.ends p { e with nextCheck := s.now + interval } }
  | .activity p =>
    let e := s.ends p
    { s with ends := setEnd s.ends p { e with lastValid := s.now } }
  | .die p =>
    let e := s.ends p
    { s with ends := setEnd s.ends p { e with ended := true } }
  | .lose =>
    match s.tok with
    | .flight _ _ _ => { s with tok := .gone }
    | _ => s

def run (c : Cfg) (s : St) : List Act → St
  | [] => s
  | a :: as => run c (step c s a) as

/-- connect_packet.rs 413-420: after the login the client sends the first packet (if the timeout is not 0). -/
def start (c : Cfg) (valid check : Side → Int) : St :=
  { now := 0
    ends := fun p => { lastKa := none, lastValid := valid p, nextCheck := check p, ended := false }
    tok := if c.timeout = 0 then .gone else .flight .server (c.off .client) 0 }

end Verif.KeepAlive

import Verif.Common.Res
/-!
# Identification of the NAT, prediction of addresses, candidates of a hole punch

`citadel_wire/src/standard/nat_identification.rs` (the part that is pure arithmetic, and the way
the results of the STUN servers are put together) and
`citadel_wire/src/udp_traversal/hole_punch_config.rs`, with the choice of the sockets in
`udp_hole_puncher.rs` and the pairing of sockets with candidates in `udp_traversal/multi/mod.rs`.

Simplifications:
* an IP address is its last octet together with all the others (24 bits, or 120 bits); the flow
  label and the scope of a v6 socket address are dropped;
* `f32` arithmetic in `average_delta` is exact: the sum is at most 65535 and is halved;
* `i32` values are integers; the one product that can leave the range (`3 * average_delta`) is
  `triple`, which panics with overflow checks and wraps without them;
* what a STUN server answered is an input.
-/
namespace Verif.NatPred

/-- `std::net::IpAddr`: the octets before the last one, and the last one. -/
inductive Ip where
  | v4 (net : BitVec 24) (host : UInt8)
  | v6 (net : BitVec 120) (host : UInt8)
deriving DecidableEq, Repr

def Ip.isV4 : Ip → Bool
  | .v4 _ _ => true
  | .v6 _ _ => false

/-- `Ipv4Addr::LOCALHOST`. -/
def localhost4 : Ip := .v4 0x7f0000#24 1
/-- `Ipv6Addr::LOCALHOST`. -/
def localhost6 : Ip := .v6 0#120 1

/-- `std::net::SocketAddr`. -/
structure Addr where
  ip : Ip
  port : UInt16
deriving DecidableEq, Repr

/-- nat_identification.rs 79-82. -/
structure Pair where
  internal : Addr
  external : Addr
deriving DecidableEq, Repr

/-- nat_identification.rs 26-42. -/
inductive IpTrans where
  | identity
  | constant (external : Ip)
  | deltaIndep (avg : Int) (last : Ip)
  | unpredictable
deriving DecidableEq, Repr

/-- nat_identification.rs 44-58. -/
inductive PortTrans where
  | identity
  | deltaConst (delta : Int)
  | deltaIndep (avg : Int) (last : UInt16)
  | unpredictable
deriving DecidableEq, Repr

/-- `async_ip::IpAddressInfo`, the fields in use. -/
structure IpInfo where
  internalIp : Ip
  externalV6 : Option Ip
deriving DecidableEq, Repr

/-- nat_identification.rs 61-66. -/
structure NatType where
  ip : IpTrans
  port : PortTrans
  info : Option IpInfo
  v6Enabled : Bool
deriving DecidableEq, Repr

/-- `NatType::offline` (69-76). -/
def offline : NatType := ⟨.identity, .identity, some ⟨localhost4, none⟩, false⟩

/-- `hole_punch_config.rs` 86-90. -/
structure Band where
  ip : Ip
  ports : List UInt16
deriving DecidableEq, Repr

def maxOctetDelta : Nat := 5

/-! ## Classification -/

/-- The sum over `tuple_windows` of the differences (391-395). -/
def windowSum : List Nat → Nat
  | a :: b :: l => (b - a) + windowSum (b :: l)
  | _ => 0

/-- `average_delta` (378-399): sorted, differences of neighbours, their mean truncated. -/
def averageDelta (vals : List Nat) : Nat :=
  windowSum (vals.mergeSort (· ≤ ·)) / (vals.length - 1)

/-- `last_octet` (321-326). -/
def Ip.lastOctet : Ip → UInt8
  | .v4 _ h => h
  | .v6 _ h => h

/-- `get_ip_translation` (214-266). -/
def ipTranslation (p0 p1 p2 : Pair) : IpTrans :=
  let e0 := p0.external.ip
  let e1 := p1.external.ip
  let e2 := p2.external.ip
  if p0.internal.ip = e0 ∧ p1.internal.ip = e1 ∧ p2.internal.ip = e2 then .identity
  else if e0 = e1 ∧ e1 = e2 then .constant e0
  else
    let o0 := e0.lastOctet.toNat
    let o1 := e1.lastOctet.toNat
    let o2 := e2.lastOctet.toNat
    let avg := averageDelta [o0, o1, o2]
    if avg ≤ maxOctetDelta then
      let highest := max o0 (max o1 o2)
      .deltaIndep avg (if o0 = highest then e0 else if o1 = highest then e1 else e2)
    else .unpredictable

/-- `get_port_translation` (268-319). -/
def portTranslation (p0 p1 p2 : Pair) : PortTrans :=
  let i0 := p0.internal.port.toNat
  let i1 := p1.internal.port.toNat
  let i2 := p2.internal.port.toNat
  let e0 := p0.external.port
  let e1 := p1.external.port
  let e2 := p2.external.port
  if i0 = e0.toNat ∧ i1 = e1.toNat ∧ i2 = e2.toNat then .identity
  else
    let d0 : Int := e0.toNat - i0
    let d1 : Int := e1.toNat - i1
    let d2 : Int := e2.toNat - i2
    if d0 = d1 ∧ d1 = d2 then .deltaConst d0
    else
      let avg := averageDelta [e0.toNat, e1.toNat, e2.toNat]
      if avg ≤ maxOctetDelta then
        let highest := max e0.toNat (max e1.toNat e2.toNat)
        .deltaIndep avg
          (if e0.toNat = highest then e0 else if e1.toNat = highest then e1 else e2)
      else .unpredictable

/-- `NatType::new` (97-107). -/
def NatType.new (v6 : Bool) (p0 p1 p2 : Pair) : NatType :=
  ⟨ipTranslation p0 p1 p2, portTranslation p0 p1 p2, none, v6⟩

/-! ## Prediction -/

/-- `wrapping_port_add` (328-335). -/
def wrappingPortAdd (port : UInt16) (delta : Int) : UInt16 :=
  let p := (port.toNat + delta).emod 65536 |>.toNat
  if p < 1024 then .ofNat (p + 1024) else .ofNat p

/-- `octets[3].wrapping_add(i as u8)` (163-173). -/
def Ip.wrappingAdd : Ip → Int → Ip
  | .v4 n h, i => .v4 n (.ofNat ((h.toNat + i).emod 256).toNat)
  | .v6 n h, i => .v6 n (.ofNat ((h.toNat + i).emod 256).toNat)

/-- `a..=b`. -/
def rangeIncl (a b : Int) : List Int :=
  (List.range (b + 1 - a).toNat).map fun k => a + (k : Nat)

/-- `3 * average_delta` in `i32`; `checks`: built with overflow checks. -/
def triple (checks : Bool) (d : Int) : Res Int :=
  if -2147483648 ≤ 3 * d ∧ 3 * d ≤ 2147483647 then .ok (3 * d)
  else if checks then .panic
  else .ok ((3 * d).bmod 4294967296)

/-- The ports of `predict` (114-135); `none`: returns `None`. -/
def anticipatedPorts (checks : Bool) (t : PortTrans) (internal : UInt16) :
    Res (Option (List UInt16)) :=
  match t with
  | .identity => .ok (some [internal])
  | .deltaConst d => .ok (some [wrappingPortAdd internal d])
  | .deltaIndep avg last =>
    (triple checks avg).bind fun hi =>
      .ok (some ((rangeIncl avg hi).map (wrappingPortAdd last)))
  | .unpredictable => .ok none

/-- The addresses of the base bands (137-184). -/
def baseIps (checks : Bool) (t : IpTrans) (internal : Ip) : Res (Option (List Ip)) :=
  match t with
  | .identity => .ok (some [internal])
  | .constant e => .ok (some [e])
  | .deltaIndep avg last =>
    (triple checks avg).bind fun hi =>
      .ok (some ((rangeIncl avg hi).map last.wrappingAdd))
  | .unpredictable => .ok none

/-- The band of the v6 address and the one of the internal address (187-205). -/
def infoBands (info : Option IpInfo) (ports : List UInt16) (bands : List Band) : List Band :=
  match info with
  | none => bands
  | some i =>
    let bands : List Band := match i.externalV6 with
      | some e => bands ++ [⟨e, ports⟩]
      | none => bands
    if bands.all (fun r => decide (r.ip ≠ i.internalIp)) then
      bands ++ [(⟨i.internalIp, ports⟩ : Band)]
    else bands

/-- "final case: nodes are on localhost" (207-217). -/
def finalBand (a : Addr) (bands : List Band) : List Band :=
  if bands.all (fun r => decide (r.ip ≠ a.ip) && !r.ports.contains a.port) then
    bands ++ [⟨a.ip, [a.port]⟩]
  else bands

/-- `NatType::predict` (111-220). -/
def NatType.predict (checks : Bool) (n : NatType) (a : Addr) : Res (Option (List Band)) :=
  (anticipatedPorts checks n.port a.port).bind fun
    | none => .ok none
    | some ports =>
      (baseIps checks n.ip a.ip).bind fun
        | none => .ok none
        | some ips =>
          .ok (some (finalBand a (infoBands n.info ports (ips.map fun ip => ⟨ip, ports⟩))))

/-! ## What the NAT types mean for a connection -/

/-- `traversal_type_required` (357-365); `true` is `TURN`. -/
def NatType.needsTurn (n : NatType) : Bool :=
  decide (n.ip = .unpredictable) || decide (n.port = .unpredictable)

/-- `stun_compatible` (368-371). -/
def NatType.stunCompatible (n m : NatType) : Bool := !n.needsTurn || !m.needsTurn

/-! ## Identification -/

/-- `get_nat_type` (565-683): what the servers answered, in the order in which they ended: an
error, nothing, or a pair. Three results are popped from the end. `info` is what was learnt about
the addresses, the addresses of the local host if nothing was. -/
def getNatType (v6 : Bool) (results : List (Res (Option Pair))) (info : IpInfo) : Res NatType :=
  match results.reverse with
  | r0 :: r1 :: r2 :: _ =>
    r0.bind fun x0 => r1.bind fun x1 => r2.bind fun x2 =>
      match x0, x1, x2 with
      | some p0, some p1, some p2 => .ok { NatType.new v6 p0 p1 p2 with info := some info }
      | _, _, _ => .err
  | _ => .err

/-- `NatType::identify` (432-449): any error makes the node "offline". `none`: the servers did not
all end within the time. -/
def identify (v6 : Bool) (results : Option (List (Res (Option Pair)))) (info : IpInfo) : NatType :=
  match results with
  | none => offline
  | some rs =>
    match getNatType v6 rs info with
    | .ok n => n
    | _ => offline

/-! ## Candidates -/

/-- `get_localhost_bands` (hole_punch_config.rs 189-200). -/
def localhostBands (a : Addr) : List Band := [⟨localhost4, [a.port]⟩, ⟨localhost6, [a.port]⟩]

/-- `Itertools::unique`: the first of equal elements is kept. -/
def unique (l : List Band) : List Band := l.eraseDups

/-- One turn of the loop of `HolePunchConfig::new` (156-185). -/
def bandSet (checks : Bool) (nat : NatType) (reflexive : List Addr) (a : Addr) :
    Res (List Band) :=
  (nat.predict checks a).bind fun p =>
    let bands : List Band := match p with
      | some b => b
      | none => [⟨a.ip, [a.port]⟩]
    .ok (unique (bands ++ reflexive.map (fun r => ⟨r.ip, [r.port]⟩) ++ localhostBands a))

/-- The loop (156-186). -/
def bandSets (checks : Bool) (nat : NatType) (reflexive : List Addr) :
    List Addr → Res (List (List Band))
  | [] => .ok []
  | a :: l =>
    (bandSet checks nat reflexive a).bind fun b =>
      (bandSets checks nat reflexive l).bind fun bs => .ok (b :: bs)

/-- `HolePunchConfig::new` (145-187). `sockets`: the number of the local sockets. -/
def configNew (checks : Bool) (nat : NatType) (internals reflexive : List Addr) (sockets : Nat) :
    Res (List (List Band)) :=
  if internals.length = sockets then bandSets checks nat reflexive internals else .panic

/-- The iterator of `AddrBand` (92-100) pops the ports from the back. -/
def Band.addrs (b : Band) : List Addr := b.ports.reverse.map fun p => ⟨b.ip, p⟩

/-- `HolePunchConfig::into_iter` (121-136), one set. -/
def addrsOf (bands : List Band) : List Addr := bands.flatMap Band.addrs

/-- `DualStackUdpHolePuncher::new` (multi/mod.rs 120-148): what the socket with the local address
`s` pings. -/
def keepFor (s : Addr) (l : List Addr) : List Addr :=
  let l := if s.ip.isV4 then l.filter (fun a => a.ip.isV4) else l
  if !s.ip.isV4 then l.filter (fun a => !a.ip.isV4) else l

/-- The addresses to ping, per socket. -/
def toPing (sockets : List Addr) (sets : List (List Band)) : List (List Addr) :=
  (sockets.zip sets).map fun (s, b) => keepFor s (addrsOf b)

/-- `get_optimal_bind_socket` (udp_hole_puncher.rs 299-334): `true` is `[::]:0`. -/
def optimalIsV6 (loc peer : NatType) : Bool :=
  let has (n : NatType) : Bool := match n.info with
    | some i => i.externalV6.isSome
    | none => false
  loc.v6Enabled && has loc && has peer && peer.v6Enabled

/-- The sockets that `driver_inner` opens (udp_hole_puncher.rs 189-197). -/
def socketCount (loc peer : NatType) : Nat := if optimalIsV6 loc peer then 2 else 1

end Verif.NatPred

import Verif.Udp.Model

/-
What the datagrams of a session are held to.
-/

namespace Verif.Udp

/-- The bodies of datagrams that came over the UDP socket of connection `j`, sealed under its keys. -/
def sealedFrom (j : Nat) (as : List Act) : List Bytes :=
  as.filterMap fun a => match a with
    | .udp k p => if k = j ∧ p.tag = some (j, p.ver) then some p.body else none
    | _ => none

/-- What the program wrote on the unordered channel of connection `j`. -/
def wrote (j : Nat) (as : List Act) : List Bytes :=
  as.filterMap fun a => match a with
    | .write i b => if i = j then some b else none
    | _ => none

/-- A packet that says who sealed it: what `craft_udp_packet` of the other end of `k` makes. Between
peers the header names the sender; between client and server the target is `0`. -/
def Packet.says (p : Packet) (k : Nat) : Prop := if k = 0 then p.dst = 0 else p.src = k ∧ p.dst ≠ 0

/-- Every datagram that is sealed says who sealed it: no other end with keys lies. -/
def Act.honest : Act → Prop
  | .udp _ p => ∀ k v, p.tag = some (k, v) → p.says k
  | _ => True

/-- A datagram addressed to this node. -/
def Packet.forMe (p : Packet) (me : Option Nat) : Prop := p.dst = 0 ∨ me = none ∨ me = some p.dst

/-- The node holds the keys with which the packet from the socket of `k` is sealed. -/
def Node.knows (s : Node) (k : Nat) (p : Packet) : Prop :=
  ∃ v vs, s.conns k = some v ∧ v.keys = some vs ∧ p.ver ∈ vs ∧ p.tag = some (k, p.ver)

end Verif.Udp

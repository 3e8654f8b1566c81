import Verif.NatPred.Model
/-!
# What a NAT does

The rules of a NAT, stated without the classification of the code. A NAT makes mappings one after
the other, mapping number `k` sends an internal address to an external one.
-/
namespace Verif.NatPred

/-- How a NAT chooses the external port of its mapping number `k`. -/
inductive PortRule where
  /-- The external port is the internal port plus a constant. -/
  | shift (d : Int)
  /-- The external port is that of the mapping before, plus a constant. -/
  | sequential (base stride : Nat)

def PortRule.Maps (r : PortRule) (k : Nat) (i e : UInt16) : Prop :=
  match r with
  | .shift d => (e.toNat : Int) = i.toNat + d
  | .sequential base stride => e.toNat = base + stride * k

/-- How a NAT chooses the external address of its mapping number `k`. -/
inductive IpRule where
  /-- No translation. -/
  | same
  /-- One external address. -/
  | one (x : Ip)
  /-- The addresses of one v4 network, in turn. -/
  | pool4 (net : BitVec 24) (base stride : Nat)
  /-- The addresses of one v6 network, in turn. -/
  | pool6 (net : BitVec 120) (base stride : Nat)

def IpRule.Maps (r : IpRule) (k : Nat) (i e : Ip) : Prop :=
  match r with
  | .same => e = i
  | .one x => e = x
  | .pool4 net base stride => ∃ h : UInt8, e = .v4 net h ∧ h.toNat = base + stride * k
  | .pool6 net base stride => ∃ h : UInt8, e = .v6 net h ∧ h.toNat = base + stride * k

/-- A NAT, as the rule for addresses and the rule for ports. -/
structure Rules where
  ip : IpRule
  port : PortRule

/-- `p` is a mapping with number `k` of a NAT with these rules. -/
def Rules.Maps (r : Rules) (k : Nat) (p : Pair) : Prop :=
  r.ip.Maps k p.internal.ip p.external.ip ∧ r.port.Maps k p.internal.port p.external.port

/-- `k0`, `k1`, `k2` are `n`, `n + 1`, `n + 2` in some order. -/
def Consecutive (n k0 k1 k2 : Nat) : Prop :=
  n ≤ k0 ∧ n ≤ k1 ∧ n ≤ k2 ∧ k0 ≤ n + 2 ∧ k1 ≤ n + 2 ∧ k2 ≤ n + 2 ∧
    k0 ≠ k1 ∧ k1 ≠ k2 ∧ k0 ≠ k2

/-- Steps the code accepts (`MAX_OCTET_DELTA`), and not zero. -/
def PortRule.SmallStep : PortRule → Prop
  | .shift _ => True
  | .sequential _ s => 1 ≤ s ∧ s ≤ 5

def IpRule.SmallStep : IpRule → Prop
  | .same => True
  | .one _ => True
  | .pool4 _ _ s => 1 ≤ s ∧ s ≤ 5
  | .pool6 _ _ s => 1 ≤ s ∧ s ≤ 5

/-- For a NAT that counts: the three observations cannot be mistaken for a constant shift. -/
def PortRule.Telling (r : PortRule) (p0 p1 p2 : Pair) : Prop :=
  match r with
  | .shift _ => True
  | .sequential _ _ =>
    ¬ ((p0.external.port.toNat : Int) - p0.internal.port.toNat =
          p1.external.port.toNat - p1.internal.port.toNat ∧
        (p1.external.port.toNat : Int) - p1.internal.port.toNat =
          p2.external.port.toNat - p2.internal.port.toNat)

/-- The address `a` is tried when the bands are `bands`. -/
def Tried (bands : List Band) (a : Addr) : Prop := a ∈ addrsOf bands

end Verif.NatPred

import Verif.UdpLife.Model

/-! What a program sees of its unordered channel (C226-C229). -/

namespace Verif.UdpLife

/-- The receiving half of channel `n` gives something or waits, and has not ended: its sender is in
the table, under a connection that is active (`channel.rs:297-309`). -/
def Listening (s : State) (n : Nat) : Prop :=
  ∃ v, s.vconn = some v ∧ v.active = true ∧ v.chan = some n

/-- The channel works: what is written goes to the socket, what arrives is given. -/
def Works (s : State) (n : Nat) : Prop := s.task n = true ∧ Listening s n

/-- The key exchanges of a run. -/
def kexes : List Event → List Nat
  | [] => []
  | .kex id :: es => id :: kexes es
  | _ :: es => kexes es

/-- No exchange begins while there is a connection. -/
def OneByOne : State → List Event → Prop
  | _, [] => True
  | s, e :: es => (∀ id, e = .kex id → s.vconn = none) ∧ OneByOne (step s e) es

/-- No socket fails. -/
def NoFail (es : List Event) : Prop := ∀ n, Event.fail n ∉ es

/-- Events that are none of the ends of channel `n`: not the failure of its socket, not the end of
the connection, and no drop of a receiving half with the same token. -/
def Harmless (s : State) (n : Nat) : Event → Prop
  | .fail m => m ≠ n
  | .deactivate => False
  | .close => False
  | .dropHalf m => s.token m ≠ s.token n
  | _ => True

/-- ... along a run. -/
def HarmlessRun : State → Nat → List Event → Prop
  | _, _, [] => True
  | s, n, e :: es => Harmless s n e ∧ HarmlessRun (step s e) n es

end Verif.UdpLife

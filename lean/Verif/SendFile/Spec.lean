import Verif.SendFile.Model

/-! What is to be sent (C230-C234). -/

namespace Verif.SendFile

/-- The state at the beginning of a transfer. -/
def start (data : Bytes) (len size first : Nat) : State :=
  ⟨len, size, first, data, 0, 0, .reading, [], .waiting, [], 0⟩

/-- The `i`-th piece of `size` bytes of the first `len` bytes. -/
def piece (data : Bytes) (len size i : Nat) : Bytes := ((data.take len).drop (i * size)).take size

/-- The groups that were sent, put together. -/
def whole (gs : List Group) : Bytes := (gs.map Group.bytes).flatten

/-- Nothing fails and nobody stops the transfer. -/
def Smooth : Event → Prop
  | .enc ok => ok = true
  | .stop _ => False
  | _ => True

/-- The hook was executed. -/
def Hooked (s : State) : Prop := s.cons = .closed

/-- How often the receiver asked for the next group. -/
def alerts : List Event → Nat
  | [] => 0
  | .alert :: es => alerts es + 1
  | _ :: es => alerts es

end Verif.SendFile

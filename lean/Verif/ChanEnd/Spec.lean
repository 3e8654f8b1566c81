import Verif.ChanEnd.Model

/-
What the receiving halves are held to, said over the acts of a run and what the program saw.
-/

namespace Verif.ChanEnd

/-- The messages handed to the ordered channel in a run. -/
def handedOrd (as : List Act) : List Msg :=
  as.filterMap fun a => match a with | .ordIn m => some m | _ => none

/-- The messages handed to the unordered channel in a run. -/
def handedUdp (as : List Act) : List Msg :=
  as.filterMap fun a => match a with | .udpIn m => some m | _ => none

/-- The messages the program got from the ordered channel. -/
def gotOrd (os : List Out) : List Msg :=
  os.filterMap fun o => match o with | .ord (.item m) => some m | _ => none

/-- The messages the program got from the unordered channel, polled or by `recv`. -/
def gotUdp (os : List Out) : List Msg :=
  os.filterMap fun o => match o with | .udp (.item m) => some m | .recvOk m => some m | _ => none

/-- What the program saw of the ordered channel. -/
def seenOrd (os : List Out) : List Polled :=
  os.filterMap fun o => match o with | .ord p => some p | _ => none

/-- What the program saw of the unordered channel when polling it. -/
def seenUdp (os : List Out) : List Polled :=
  os.filterMap fun o => match o with | .udp p => some p | _ => none

/-- The acts that concern the unordered channel alone. -/
def Act.udpOnly : Act → Bool
  | .udpIn _ | .openUdp | .closeUdp | .pollUdp | .recv _ | .dropUdp => true
  | _ => false

/-- The acts that can end the ordered channel. -/
def Act.ends : Act → Bool
  | .deactivate | .remove | .dropOrd => true
  | _ => false

end Verif.ChanEnd

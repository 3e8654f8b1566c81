import Verif.Rtc.Model

/-! What a pair of browsers is to get (C244-C247). -/

namespace Verif.Rtc

/-- The hole punch of an end is over. -/
def End.over (e : End) : Prop := e.phase = .direct ∨ e.phase = .relayed

/-- The end of an attempt that is reached when nothing fails. -/
def smooth : List Event :=
  [.begin true false, .begin false false, .make true true, .arrive false, .recv false true,
    .make false true, .arrive true, .recv true true, .opens true, .opens false]

/-- No step of the browser fails and neither end needs a relay. -/
def Good : Event → Prop
  | .begin _ turn => turn = false
  | .make _ ok => ok = true
  | .recv _ ok => ok = true
  | .error _ => False
  | _ => True

/-- Everything but what the network does to the data channel. -/
def Quiet : Event → Prop
  | .opens _ => False
  | .error _ => False
  | _ => True

end Verif.Rtc

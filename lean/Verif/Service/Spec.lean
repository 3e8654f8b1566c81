import Verif.Service.Model

/-
What the internal service is held to, said over the acts of a run and what came out.
-/

namespace Verif.Service

/-- The bytes that the client `i` sent. -/
def arrived (i : Nat) (as : List Act) : Bytes :=
  (as.filterMap fun a => match a with
    | .at j (.arrive m) => if j = i then some m else none | _ => none).flatten

/-- The writes of the service of client `i`. -/
def written (i : Nat) (as : List Act) : List Bytes :=
  as.filterMap fun a => match a with
    | .at j (.write m) => if j = i then some m else none | _ => none

/-- The bytes that the service of client `i` read. -/
def readBy (i : Nat) (os : List (Nat × Out)) : Bytes :=
  (os.filterMap fun o => match o with
    | (j, .got b) => if j = i then some b else none | _ => none).flatten

/-- The packets that went to client `i`. -/
def sentTo (i : Nat) (os : List (Nat × Out)) : List Bytes :=
  os.filterMap fun o => match o with
    | (j, .sent m) => if j = i then some m else none | _ => none

/-- All that came out for client `i`. -/
def seenBy (i : Nat) (os : List (Nat × Out)) : List Out :=
  os.filterMap fun o => if o.1 = i then some o.2 else none

/-- The act is of client `i`. -/
def Act.of (i : Nat) : Act → Bool
  | .at j _ => j == i
  | .node => false

/-- The act ends a service. -/
def Act.stops : Act → Bool
  | .at _ .stop => true
  | _ => false

end Verif.Service

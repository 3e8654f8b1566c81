import Verif.GroupChan.Model
/-
What the properties of the channels of groups speak of.
-/
namespace Verif.GroupChan

/-- Before anything happened. -/
def start (owner isPublic : Bool) (cap : Nat) : State := { owner := owner, isPublic := isPublic, cap := cap }

/-- Signals that open a channel. -/
def opens : Sig → Bool
  | .createResp true => true
  | .welcome => true
  | _ => false

/-- Signals that tell the end of a membership. -/
def ends : Sig → Bool
  | .endResp _ => true
  | .leaveResp _ => true
  | .disconnected => true
  | _ => false

/-- Signals meant for the user: not those with which the node opens a channel or joins, and not the refusal of a `Create`. -/
def told (owner : Bool) : Sig → Bool
  | .createResp _ => false
  | .welcome => false
  | .acceptResp ok => owner || !ok
  | _ => true

/-- What came out of the stream of channel `n`. -/
def streamOf (n : Nat) (l : List (Sig × Place)) : List Sig :=
  (l.filter fun e => e.2 == .stream n).map (·.1)

/-- Whether a channel is open once the signals of a list have arrived. -/
def settled (isOpen : Bool) : List Sig → Bool
  | [] => isOpen
  | g :: l => settled (if opens g then true else if ends g then false else isOpen) l

/-- Nothing is on the way. -/
def AtRest (s : State) : Prop := s.up = [] ∧ s.down = [] ∧ s.kps = 0 ∧ ∀ h ∈ s.hs, h.q = []

instance (s : State) : Decidable (AtRest s) := by unfold AtRest; infer_instance

/-- The owner answers a key package only while the client is a member. -/
def promptly (s : State) : List Act → Prop
  | [] => True
  | a :: as => (a = .welcome → s.mem = true) ∧ promptly (step s a).1 as

end Verif.GroupChan

import Verif.PeerKernel.Model
/-!
# What the user of the kernel should see
-/
namespace Verif.PeerKernel

/-- The peers are different: the connection a task registers early and the connection it makes (`peer`) are never those
of another task. -/
def Distinct (n : Nat) (key peer : Nat → Key) : Prop :=
  ∀ i j, i < n → j < n → i ≠ j → key i ≠ key j ∧ peer i ≠ peer j ∧ key i ≠ peer j

/-- Every task that connects gets the connection to its peer. -/
def Connects (peer : Nat → Key) (as : List Act) : Prop := ∀ i c, Act.connectOk i c ∈ as → c = peer i

/-- The target a party writes into the header of a file it offers to `me`. -/
def target (me from_ : Nat) : VTarget := if from_ = 0 then .server me else .peer from_ me

/-- A file handle made from packets that name their makers: an offer of `h.by_`, or the answer of `h.by_` to an offer
made by `me`. -/
inductive Honest (me : Nat) : Nat → Handle → Prop where
  | offer (from_ id : Nat) (revfs : Bool) :
      Honest me (inbound from_ id (target me from_) revfs).1 (inbound from_ id (target me from_) revfs).2
  | answer (from_ id : Nat) (revfs : Bool) (h : from_ ≠ 0) :
      Honest me (outbound from_ id from_ me (.peer from_ me) revfs).1
        (outbound from_ id from_ me (.peer from_ me) revfs).2
  | answerServer (id : Nat) (revfs : Bool) :
      Honest me (outbound 0 id me 0 (.server me) revfs).1 (outbound 0 id me 0 (.server me) revfs).2

/-- All file handles of a run are made from such packets. -/
def AllHonest (me : Nat) (as : List Act) : Prop := ∀ sid h, Act.file sid h ∈ as → Honest me sid h

end Verif.PeerKernel

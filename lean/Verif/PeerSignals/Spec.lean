import Verif.PeerSignals.Model
/-! Vocabulary for the statements about the server's peer signals. -/
namespace Verif.PeerSignals
open Verif

/-- Every client fills in its own cid in the packet header (and in the payload of a deregistration). -/
def HonestHeader : Op → Prop
  | .postRegister c h _ _ => h = c
  | .answerRegister c h _ _ _ => h = c
  | .postOther c h _ => h = c
  | .deregister c a _ _ => a = c
  | .deleteAccount c h => h = c
  | _ => True

instance : DecidablePred HonestHeader := fun op => by cases op <;> unfold HonestHeader <;> infer_instance

/-- Clients answer only tickets of requests that were addressed to them: whatever posting is answered is a registration
request naming the answering cid. -/
def AnswersOwnInvitations (ops : List Op) : Prop :=
  ∀ pre c h target ticket d post, ops = pre ++ .answerRegister c h target ticket d :: post →
    ∀ sig, (after pre).postings.get? (target, ticket) = some sig → sig = .register h

end Verif.PeerSignals

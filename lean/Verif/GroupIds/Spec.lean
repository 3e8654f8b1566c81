import Verif.GroupIds.Model
/-! Vocabulary for C85: about the requests only. -/
namespace Verif.GroupIds
variable {T : Type}

/-- The messages among the requests, in order. -/
def messages : List (Send T) → List T
  | [] => []
  | .message m :: rs => m :: messages rs
  | .file _ :: rs => messages rs

/-- No file among the requests. -/
def NoFile (rs : List (Send T)) : Prop := ∀ r ∈ rs, ∃ m, r = Send.message m

end Verif.GroupIds

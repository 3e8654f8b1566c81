import Verif.Rekey.Model
/-
What is asked of the re-key protocol, in terms of the stores and counters of the two endpoints.
-/
namespace Verif.Rekey

/-- Whenever both endpoints hold a ratchet for a version, it is the same one. -/
def SameRatchets (s : Sys) : Prop := ∀ v p q, s.i.keys v = some p → s.n.keys v = some q → p = q

/-- Each endpoint holds the ratchet its peer encrypts with. -/
def PeerHolds (s : Sys) : Prop :=
  (∃ k, s.i.keys s.n.latest = some k) ∧ (∃ k, s.n.keys s.i.latest = some k)

/-- The usable versions differ by at most one. -/
def Close (s : Sys) : Prop := s.i.latest ≤ s.n.latest + 1 ∧ s.n.latest ≤ s.i.latest + 1

/-- Nothing is under way: no message, no call, and both background tasks wait for a message. -/
def AtRest (s : Sys) : Prop :=
  s.toI = [] ∧ s.toN = [] ∧ s.i.t = .idle ∧ s.n.t = .idle ∧ s.i.b = .recv ∧ s.n.b = .recv

/-- An endpoint that will take part in the next re-key, whoever starts it. -/
structure ReadyEP (x : EP) : Prop where
  role : x.role = .idle
  toggle : x.tog = false
  declared : x.declared = x.latest
  newest : x.most = x.latest
  round : x.rmeta = x.latest
  constructors : ∀ k, x.cons k = none

/-- The background task is in an error return of `rekey`. -/
def Failed (x : EP) : Prop := x.b = .errToggle ∨ x.b = .errRole ∨ x.b = .errSync

/-- The same decision taken several times in a row. -/
def burst (as : List (Act × Nat)) : List Act := as.flatMap fun p => List.replicate p.2 p.1

end Verif.Rekey

import Verif.Ranks.Model
/-
What the positions should be, read off the actions.
-/
namespace Verif.Ranks
open Verif Verif.Hierarchy

variable {M : Type} [DecidableEq M] (P : Prims M)

/-- The secret of a path below a root. -/
def node (root : M) (p : Path) : M := p.foldl P.khash root

/-- The root: drawn at the creation, and again by each demotion. -/
def rootOf (root : M) : List (Act M) → M
  | [] => root
  | .demote _ root' _ _ _ :: as => rootOf root' as
  | _ :: as => rootOf root as

/-- The rank of `c`: the last one it was given. -/
def rankOf (c : Cid) (rank : Option Path) : List (Act M) → Option Path
  | [] => rank
  | .promote x path _ :: as => rankOf c (if x = c then some path else rank) as
  | .demote x _ _ _ _ :: as => rankOf c (if x = c then some (demotedPath x) else rank) as
  | _ :: as => rankOf c rank as

/-- The owner gives no rank to itself and does not kick itself, and the server does not let it in as somebody else. -/
def Proper (o : Cid) : Act M → Prop
  | .accept c _ => c ≠ o
  | .promote c _ _ => c ≠ o
  | .demote c _ _ _ _ => c ≠ o
  | .kick c _ _ => c ≠ o
  | _ => True

/-- `c` has a leaf in the owner's tree. -/
def InTree (y : Sys M) (c : Cid) : Prop := ∃ g pk, y.owner.group = some g ∧ some (c, pk) ∈ g.leaves

end Verif.Ranks

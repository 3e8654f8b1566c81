import Verif.TreeKem.Spec
import Verif.Sym.Term
/-
The primitives on symbolic terms.

Every derivation is a hash with its own label. The secret key of a node is derived from its path secret by two more
one-way functions; here it is the path secret itself, which is what members store. The transcript hashes an encoding of
the commit.
-/
namespace Verif.TreeKem

open Verif.Sym

def encList : List Term → Term
  | [] => .lit "nil"
  | t :: ts => .pair t (encList ts)

def encUpd (u : UpdNode Term) : Term := .pair u.pk (encList u.cts)

def encProposal : Proposal Term → Term
  | .add leaf i => .pair (.lit "add") (.pair (.pair (.num leaf.cid) (.pair leaf.pk (.num leaf.index))) (.num i))
  | .remove i => .pair (.lit "remove") (.num i)

def encPath (u : UpdatePath Term) : Term := .pair (.num u.leafIndex) (.pair u.leafPk (encList (u.nodes.map encUpd)))

def encCommit (c : Commit Term) : Term := .pair (encList (c.proposals.map encProposal)) (encPath c.path)

def asymDec (s : Term) : Term → Option Term
  | .aenc (.pk s') m _ => if s = s' then some m else none
  | _ => none

def symDec (k : Term) : Term → Option Term
  | .senc k' _ m => if k = k' then some m else none
  | _ => none

/-- Values of 32 bytes. -/
def is32 : Term → Bool
  | .fresh _ => true
  | .hash _ => true
  | _ => false

def splitT : Term → Option (Term × Term)
  | .pair a b => if is32 a && is32 b then some (a, b) else none
  | _ => none

def isPk : Term → Bool
  | .pk _ => true
  | _ => false

def labelled (l : String) (t : Term) : Term := .hash (.pair (.lit l) t)

def symPrims : Prims Term where
  next s := labelled "path" s
  pub s := .pk s
  okPk := isPk
  enc k m r := .aenc k m r
  dec := asymDec
  isSecret := is32
  cat a b := .pair a b
  split := splitT
  zero := .lit "zero"
  epochKdf root init tr := labelled "epoch" (.pair root (.pair init tr))
  expand e l := labelled l e
  transcript t c := labelled "transcript" (.pair t (encCommit c))
  msgKey k i g := labelled "message" (.pair k (.pair (.num i) (.num g)))
  aeadSeal k m := .senc k (.lit "nonce") m
  aeadOpen := symDec

theorem symPrims_lawful : Lawful symPrims where
  okPub _ := rfl
  dec_enc s m r := by simp [symPrims, asymDec]
  secretNext _ := rfl
  secretExpand _ _ := rfl
  split_cat a b ha hb := by
    have ha : is32 a = true := ha
    have hb : is32 b = true := hb
    simp [symPrims, splitT, ha, hb]
  open_seal k m := by simp [symPrims, symDec]

end Verif.TreeKem

import Verif.Model.BlockSubs
/-!
Specification of the substitutions of blocks: they depend on the block alone.
-/
namespace Verif.BlockSubs
open Verif

/-- a text of a document: what it belongs to -/
inductive Owner where
  | none
  | block (c : Context) (a : Attrs)
  | cell (literal : Bool)
deriving DecidableEq, Repr

/-- the texts of a document, in order -/
def Doc.texts : Doc → List (Nat × Owner)
  | .done => []
  | .text n rest => (n, .none) :: rest.texts
  | .para c a n rest => (n, .block c a) :: rest.texts
  | .delimited c a n inside rest =>
    (if c ∈ [.listing, .literal, .passthrough, .verse] then [(n, .block c a)] else if c = .comment then [] else inside.texts) ++ rest.texts
  | .group inside rest => inside.texts ++ rest.texts
  | .cell l n rest => (n, .cell l) :: rest.texts
  | .document inside rest => inside.texts ++ rest.texts

/-- the substitutions that the kind of a block asks for -/
def usual : Owner → Substitutions
  | .none | .cell false => .normal
  | .cell true => .verbatim
  | .block .passthrough _ => .none
  | .block .listing _ | .block .literal _ => .verbatim
  | .block .paragraph a => if a.source then .verbatim else .normal
  | .block _ _ => .normal

/-- the substitutions that a text asks for: those of its kind, changed by its own `subs` attribute -/
def asked (o : Owner) : Option Substitutions :=
  match o with
  | .block _ a => fromMeta (usual o) a.subs
  | _ => some (usual o)

/-- No block that has other blocks in it has a `subs` attribute. -/
def Doc.leafSubs : Doc → Prop
  | .done => True
  | .text _ rest | .para _ _ _ rest | .cell _ _ rest => rest.leafSubs
  | .delimited c a _ inside rest => (c ∈ [.listing, .literal, .passthrough, .verse, .comment] ∨ a.subs = none ∧ ¬ (c = .paragraph ∧ a.source = true) ∧ inside.leafSubs) ∧ rest.leafSubs
  | .group inside rest | .document inside rest => inside.leafSubs ∧ rest.leafSubs

/-- one document after another -/
def Doc.then : Doc → Doc → Doc
  | .done, d => d
  | .text n rest, d => .text n (rest.then d)
  | .para c a n rest, d => .para c a n (rest.then d)
  | .delimited c a n inside rest, d => .delimited c a n inside (rest.then d)
  | .group inside rest, d => .group inside (rest.then d)
  | .cell l n rest, d => .cell l n (rest.then d)
  | .document inside rest, d => .document inside (rest.then d)

end Verif.BlockSubs

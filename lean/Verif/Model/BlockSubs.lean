import Verif.Model.Subs
import Verif.Model.Split
/-!
Model of the substitutions that are in force when the text of blocks is parsed: `parser/src/parse_context.rs:180-198`,
`parser/src/tasks/parse_block.rs:334-399`, `425-440`, `parser/src/tasks/table/parse_table.rs:300-318`, `parser/src/parser.rs:79-94`.

What is modelled is the set of substitutions of the parse context, from block to block. The blocks are given as a tree; how they are found in the
source is modelled elsewhere. Parsing inline text leaves the set as it was (the model of inline text takes it as an argument). A strict parser that
meets an error stops, and no text is parsed after it; that is not modelled.
-/
namespace Verif.BlockSubs
open Verif

/-- `ast/src/block.rs:70-103` — the contexts of blocks; those that do not differ here are `other` -/
inductive Context where
  | passthrough | listing | literal | comment | verse | paragraph | other
deriving DecidableEq, Repr

/-- what the attribute lists of a block say: whether `source` is among the positional attributes, and the value of `subs` -/
structure Attrs where
  source : Bool := false
  subs : Option (List Char) := none
deriving DecidableEq, Repr

/-- A document, block by block. Numbers are the names of the texts. -/
inductive Doc where
  | done
  /-- text that is parsed as it is: titles and the text of list items -/
  | text (n : Nat) (rest : Doc)
  /-- a paragraph, with its context -/
  | para (c : Context) (a : Attrs) (n : Nat) (rest : Doc)
  /-- a delimited block: it has text (`n`) in some contexts, and blocks in the others -/
  | delimited (c : Context) (a : Attrs) (n : Nat) (inside rest : Doc)
  /-- blocks in a list item or a section -/
  | group (inside rest : Doc)
  /-- a table cell that is not a document -/
  | cell (literal : Bool) (n : Nat) (rest : Doc)
  /-- a table cell that is a document -/
  | document (inside rest : Doc)
deriving DecidableEq, Repr

/-- `customize_subs.rs:4-11` — the start of `from_meta` -/
def fromMeta (current : Substitutions) : Option (List Char) → Option Substitutions
  | none => some current
  | some v => customize current (v.any fun c => c = '-' ∨ c = '+') (Split.splitOn ',' v)

/-- `parse_context.rs:180-198` — `set_subs_for` -/
def setSubsFor (current : Substitutions) (c : Context) (a : Attrs) : Option Substitutions :=
  let subs := match c with
    | .passthrough => Substitutions.none
    | .listing | .literal => Substitutions.verbatim
    | .paragraph => if a.source then Substitutions.verbatim else current
    | _ => current
  fromMeta subs a.subs

/-- `substitutions.rs:220-232` — the substitutions of a cell -/
def cellSubs (literal : Bool) : Substitutions := if literal then .verbatim else .normal

/-- The texts of a document in the order they are parsed, each with the substitutions in force; and the substitutions in force at the end.
`none`: it panics. -/
def walk (s : Substitutions) : Doc → Option (Substitutions × List (Nat × Substitutions))
  | .done => some (s, [])
  | .text n rest => do
    let (s', out) ← walk s rest
    some (s', (n, s) :: out)
  | .para c a n rest => do
    -- `parse_block.rs:436-438`
    let restore := s
    let t ← setSubsFor s c a
    let (s', out) ← walk restore rest
    some (s', (n, t) :: out)
  | .delimited c a n inside rest => do
    -- `parse_block.rs:338-399`
    let restore := s
    let t ← setSubsFor s c a
    let here ← (if c ∈ [.listing, .literal, .passthrough, .verse] then some [(n, t)]
      else if c = .comment then some []
      else (walk t inside).map (·.2) : Option (List (Nat × Substitutions)))
    let (s', out) ← walk restore rest
    some (s', here ++ out)
  | .group inside rest => do
    let (s', here) ← walk s inside
    let (s', out) ← walk s' rest
    some (s', here ++ out)
  | .cell literal n rest => do
    -- `parse_table.rs:311-314`
    let restore := s
    let t := cellSubs literal
    let (s', out) ← walk restore rest
    some (s', (n, t) :: out)
  | .document inside rest => do
    -- `parser.rs:79-94`, `parse_context.rs:105-131`: a parser of its own
    let (_, here) ← walk .normal inside
    let (s', out) ← walk s rest
    some (s', here ++ out)

end Verif.BlockSubs

import Verif.Spec.Captions
/-! Specification for well bracketed output: the documents whose output is well
bracketed. `Balanced` itself is in Spec/Html.lean. -/
namespace Verif.Spec.Balanced
open Verif.Ast Verif.Html Verif.Spec.Eval

/-- not a description list -/
def noDlist : Block → Prop
  | .mk info _ _ _ _ => info.context ≠ .descriptionList

/-- not a description list that is laid out as a table or as questions and answers -/
def noTableDlist : Block → Prop
  | .mk info _ _ _ _ => info.context = .descriptionList → info.dlist = .plain ∨ info.dlist = .glossary

/-- not a declaration of an attribute -/
def noDeclaration : Block → Prop
  | .mk info _ _ _ _ => info.context ≠ .documentAttributeDecl

/-- a list item with a description: a text, or attached blocks -/
def described : Item → Bool
  | .plain .. => false
  | .desc _ _ description blocks => description.isSome || !blocks.isEmpty

/-- a description list item with one term -/
def oneTerm : Item → Bool
  | .plain .. => false
  | .desc _ terms _ _ => terms.isEmpty

/-- the document has a preamble -/
def hasPreamble : DocContent → Bool
  | .blocks _ => false
  | .sections preamble _ | .parts preamble _ _ _ => preamble.isSome

/-- a table of contents in the preamble of an embedded document, only if the document
has a title -/
def tocFits : Doc → Prop
  | .mk attrs title toc _ _ _ content =>
    hasPreamble content = true → (∃ t, toc = some t ∧ t.position = .preamble) → title.isSome = true ∨ attrs.embedded = false

/-- the cell of a table has text, not a document or literal text -/
def textCell : Cell → Bool
  | .paragraphs .. => true
  | _ => false

/-- a document in a cell: it has no such cells itself, unless the whole document is
embedded or inline -/
def cellFits : Cell → Prop
  | .asciidoc (.mk attrs title toc head header footer content) =>
    tocFits (.mk attrs title toc head header footer content) ∧
    (attrs.embedded = true ∨ attrs.inlineDoctype = true ∨ Captions.NoCellDocuments (.mk attrs title toc head header footer content))
  | _ => True

/-- The blocks whose output is well bracketed: a verse with a citation has an
attribution; items of description lists that are tables or questions and answers have a
description, in tables one term, and no description lists inside; no such lists in
glossaries; no declarations in callout lists; header rows have text only. -/
def tidy : Block → Prop
  | .mk info _ attribution cite content =>
    (info.context = .verse → cite.isSome = true → attribution.isSome = true) ∧
    (∀ v items, content = .list v items →
      (info.context = .descriptionList → info.dlist = .horizontal → items.all described = true ∧ items.all oneTerm = true ∧ AllItems noDlist items) ∧
      (info.context = .descriptionList → info.dlist = .qanda → items.all described = true ∧ AllItems noDlist items) ∧
      (info.context = .descriptionList → info.dlist = .glossary → AllItems noTableDlist items) ∧
      (info.context = .calloutList ∨ v = .callout → AllItems noDeclaration items)) ∧
    (∀ h rows f, content = .table h rows f → (∀ c ∈ h.getD [], textCell c = true) ∧ (∀ r ∈ rows, ∀ c ∈ r, cellFits c) ∧ ∀ c ∈ f.getD [], cellFits c)

/-- every block of the document is such a block, and so is its table of contents -/
def Tidy (d : Doc) : Prop := AllDoc tidy d ∧ tocFits d

end Verif.Spec.Balanced

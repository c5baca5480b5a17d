import Verif.Spec.Notes
/-! Specification of documents that can be rendered without a panic. -/
namespace Verif.Spec.Renders
open Verif.Ast Verif.Eval Verif.Html Verif.Spec.Eval Verif.Spec.Notes

/-- Calls that ask for something the backend has: menus have two items or more,
sections are at most six deep, references between texts come to an end. -/
def good : Ev → Bool
  | .visit (.leaf (.menu n)) => decide (2 ≤ n)
  | .enter (.section i) => decide (i.level ≤ 6)
  | .panic | .bound => false
  | _ => true

/-- The calls for a text do not need the second buffer while it is in use; `used`: it is
in use at the start. Footnotes use it for their text, images that link to themselves
for their address. -/
def calm : Bool → List Ev → Bool
  | _, [] => true
  | used, .enter (.footnote _) :: evs => !used && calm true evs
  | _, .exit (.footnote _) :: evs => calm false evs
  | used, .visit (.leaf (.image _ true)) :: evs => !used && calm used evs
  | used, _ :: evs => calm used evs

/-- A document title that is not shown is kept in the second buffer for a while.
Paragraphs of documents of type `inline` do not show their titles. -/
def docFits (inl : List Inline → List Ev) : Doc → Prop
  | .mk attrs title toc head header footer content =>
    (titleShown attrs = false → ∀ ns, title = some ns → calm true (inl ns) = true) ∧
    (attrs.inlineDoctype = true → AllDoc plainParagraph (.mk attrs title toc head header footer content))

/-- a cell with a document that fits -/
def cellFits (inl : List Inline → List Ev) : Cell → Prop
  | .asciidoc d => docFits inl d
  | _ => True

/-- Blocks that leave nothing in the second buffer: titles are only where they are
shown (or, for passthroughs, dropped), and use no buffer themselves; the paragraphs of a
description that starts on the line of its term have none. -/
def blockFits (inl : List Inline → List Ev) : Block → Prop
  | .mk info title _ _ content =>
    (∀ ns, title = some ns → calm true (inl ns) = true ∧ (showsTitle info.context = true ∨ info.context = .passthrough)) ∧
    (∀ v items, content = .list v items → ∀ i ∈ items, ∀ p ts d bs, i = .desc p ts (some d) bs → AllBlock plainParagraph d) ∧
    (∀ h rows f, content = .table h rows f → (∀ c ∈ h.getD [], cellFits inl c) ∧ (∀ r ∈ rows, ∀ c ∈ r, cellFits inl c) ∧ ∀ c ∈ f.getD [], cellFits inl c)

/-- The documents the theorem is about; `inl`: the calls for a text. -/
structure Renderable (inl : List Inline → List Ev) (d : Doc) : Prop where
  formed : WellFormed d
  blocks : AllDoc (blockFits inl) d
  doc : docFits inl d
  texts : ∀ ns ∈ docTexts d, calm false (inl ns) = true
  calls : ∀ e ∈ Eval.visit inl d, good e = true

end Verif.Spec.Renders

import Verif.Model.Ast
/-! Specification for the semantic HTML backend: the documents whose output is well
bracketed. `Balanced` itself is in Spec/Html.lean. -/
namespace Verif.Spec.Html5s
open Verif.Ast

/-- A place in a document. -/
structure Place where
  /-- between the document title and the first section or part -/
  preamble : Bool
  /-- `doctype` is `inline` -/
  inline : Bool
  /-- tables may have documents in their cells -/
  cells : Bool

/-- blocks of this kind show their title -/
def showsTitle (inline : Bool) : Context → Bool
  | .thematicBreak | .pageBreak | .tableOfContents | .comment | .calloutList | .discreteHeading | .sectionBlock | .documentAttributeDecl => false
  | .paragraph => !inline
  | _ => true

/-- The output ends with `</div>` after the block, or, if the block writes nothing, it
did `before`. -/
def endsDiv (before : Bool) : Block → Bool
  | .mk info title _ _ content =>
    match info.context with
    | .listing | .literal | .verse | .blockQuote | .table | .audio | .video => title.isNone
    | .example => title.isNone && !info.collapsible
    | .openBlock => title.isNone || !info.isAbstract
    | .unorderedList | .orderedList | .descriptionList => title.isNone && info.depth = 1
    | .image => title.isNone && (match content with
      | .image t _ => t.isNone
      | _ => false)
    | .calloutList | .quotedParagraph | .pageBreak => true
    | .comment | .documentAttributeDecl => title.isNone && before
    | _ => false

mutual
/-- A verse has no title; a callout list comes right after a block that ends with
`</div>`; in a preamble, titles are on blocks that show them; in the first row of a table
that is a header, cells are neither literal nor emphasised, monospaced or strong; and
documents in cells have such cells only if they are embedded or inline. -/
def fitBlock (p : Place) (before : Bool) : Block → Prop
  | .mk info title _ _ content =>
    (info.context = .verse → title.isSome = false) ∧ (info.context = .calloutList → before = true) ∧
    (p.preamble = true → title.isSome = true → showsTitle p.inline info.context = true) ∧
    fitContent p (decide (info.context = .descriptionList)) content
@[inherit_doc fitBlock]
def fitContent (p : Place) (desc : Bool) : Content → Prop
  | .compound bs => fitBlocks p false bs
  | .list _ items => fitItems p desc items
  | .section s => fitSect p s
  | .table header rows footer => fitEdge p .header header ∧ fitRows p rows ∧ fitEdge p .footer footer
  | _ => True
@[inherit_doc fitBlock]
def fitBlocks (p : Place) (before : Bool) : List Block → Prop
  | [] => True
  | b :: bs => fitBlock p before b ∧ fitBlocks p (endsDiv before b) bs
/-- The blocks of an item; in description lists the description is the first of them. -/
def fitItem (p : Place) (desc : Bool) : Item → Prop
  | .plain _ bs => fitBlocks p false bs
  | .desc _ _ none bs => fitBlocks p false bs
  | .desc _ _ (some d) bs => if desc then fitBlock p false d ∧ fitBlocks p (endsDiv false d) bs else fitBlocks p false bs
@[inherit_doc fitBlock]
def fitItems (p : Place) (desc : Bool) : List Item → Prop
  | [] => True
  | i :: is => fitItem p desc i ∧ fitItems p desc is
@[inherit_doc fitBlock]
def fitSect (p : Place) : Sect → Prop
  | .mk _ _ bs => fitBlocks p false bs
@[inherit_doc fitBlock]
def fitSects (p : Place) : List Sect → Prop
  | [] => True
  | s :: ss => fitSect p s ∧ fitSects p ss
@[inherit_doc fitBlock]
def fitCell (p : Place) (s : TableSection) : Cell → Prop
  | .paragraphs style _ => s = .header → style = .default ∨ style = .header
  | .literal _ => s ≠ .header
  | .asciidoc d => p.cells = true ∧ fitDoc true d
@[inherit_doc fitBlock]
def fitCells (p : Place) (s : TableSection) : List Cell → Prop
  | [] => True
  | c :: cs => fitCell p s c ∧ fitCells p s cs
@[inherit_doc fitBlock]
def fitEdge (p : Place) (s : TableSection) : Option (List Cell) → Prop
  | none => True
  | some cs => fitCells p s cs
@[inherit_doc fitBlock]
def fitRows (p : Place) : List (List Cell) → Prop
  | [] => True
  | r :: rs => fitCells p .body r ∧ fitRows p rs
@[inherit_doc fitBlock]
def fitPart (p : Place) : Part → Prop
  | .mk _ _ none ss => fitSects p ss
  | .mk _ _ (some bs) ss => fitBlocks p false bs ∧ fitSects p ss
@[inherit_doc fitBlock]
def fitParts (p : Place) : List Part → Prop
  | [] => True
  | q :: qs => fitPart p q ∧ fitParts p qs
@[inherit_doc fitBlock]
def fitDocContent (p : Place) : DocContent → Prop
  | .blocks bs => fitBlocks p false bs
  | .sections none ss => fitSects p ss
  | .sections (some bs) ss => fitBlocks { p with preamble := true } false bs ∧ fitSects p ss
  | .parts none opening parts closing => fitSects p opening ∧ fitParts p parts ∧ fitSects p closing
  | .parts (some bs) opening parts closing =>
    fitBlocks { p with preamble := true } false bs ∧ fitSects { p with preamble := true } opening ∧ fitParts p parts ∧ fitSects p closing
@[inherit_doc fitBlock]
def fitDoc (inCell : Bool) : Doc → Prop
  | .mk attrs _ _ _ _ _ content => fitDocContent ⟨false, attrs.inlineDoctype, attrs.embedded || attrs.inlineDoctype || !inCell⟩ content
end

/-- A document whose output is well bracketed; see `fitBlock`. -/
def Fits (d : Doc) : Prop := fitDoc false d

end Verif.Spec.Html5s

import Verif.Spec.Captions
/-! Specification of footnotes and of where buffered text goes: a document is read as
a sequence of texts and footnotes, and laid out on a page with a list of notes at its
end. -/
namespace Verif.Spec.Notes
open Verif.Ast Verif.Eval Verif.Html Verif.Spec.Eval

/-- What a reader sees: text, the number of a new footnote, the number of a footnote
that was used before, the number in front of a footnote's text. -/
inductive Shown
  | text (s : Text) | mark (n : Nat) | again (n : Nat) | define (n : Nat)
  deriving DecidableEq, Repr

/-- what a reader sees of the output -/
def shown : List Tok → List Shown
  | [] => []
  | .text s :: ts => .text s :: shown ts
  | .footnote n :: ts => .mark n :: shown ts
  | .footnoteRef n :: ts => .again n :: shown ts
  | .footnoteDef n :: ts => .define n :: shown ts
  | _ :: ts => shown ts

/-- a text, or a footnote with its texts -/
inductive Atom
  | text (s : Text) | note (id : Option Text) (body : List Text)
  deriving DecidableEq, Repr

/-- the characters a node stands for -/
def leafTexts : Leaf → List Text
  | .text s => [s]
  | .specialChar c => [[c]]
  | _ => []

/-- the texts of calls for inline nodes, in order -/
def texts : List Ev → List Text
  | [] => []
  | .visit (.leaf l) :: evs => leafTexts l ++ texts evs
  | _ :: evs => texts evs

/-- the texts and footnotes of calls for inline nodes, in order; `open?`: the footnote
that is being read -/
def atoms : Option (Option Text × List Text) → List Ev → List Atom
  | _, [] => []
  | none, .visit (.leaf l) :: evs => (leafTexts l).map .text ++ atoms none evs
  | some (id, ts), .visit (.leaf l) :: evs => atoms (some (id, ts ++ leafTexts l)) evs
  | none, .enter (.footnote id) :: evs => atoms (some (id, [])) evs
  | some (id, ts), .exit (.footnote _) :: evs => .note id ts :: atoms none evs
  | o, _ :: evs => atoms o evs

/-- no footnote inside a footnote; `inside`: at the start one is open -/
def flat : Bool → List Ev → Bool
  | _, [] => true
  | inside, .enter (.footnote _) :: evs => !inside && flat true evs
  | _, .exit (.footnote _) :: evs => flat false evs
  | inside, _ :: evs => flat inside evs

/-- the notes at the end of a document, with their names -/
abbrev Notes := List (Option Text × List Shown)

/-- the number of the first note with the name -/
def numberOf (id : Option Text) (notes : Notes) : Option Nat :=
  match id with
  | none => none
  | some name => (notes.findIdx? fun n => n.1 = some name).map (· + 1)

/-- Texts are shown where they are. A footnote whose name was used before shows the
number of that note, another one gets the next number and becomes a note. -/
def layout : Notes → List Atom → List Shown × Notes
  | notes, [] => ([], notes)
  | notes, .text s :: as => (.text s :: (layout notes as).1, (layout notes as).2)
  | notes, .note id body :: as =>
    match numberOf id notes with
    | some n => (.again n :: (layout notes as).1, (layout notes as).2)
    | none =>
      let r := layout (notes ++ [(id, body.map .text)]) as
      (.mark (notes.length + 1) :: r.1, r.2)

/-- the list of notes, counting from `i` -/
def noteList : Nat → Notes → List Shown
  | _, [] => []
  | i, (_, body) :: notes => .define i :: body ++ noteList (i + 1) notes

mutual
/-- the texts in a text without cross references -/
def nodeTexts : Inline → List Text
  | .leaf l => leafTexts l
  | .skipped => []
  | .wrap _ ns | .visibleTerm ns => nodesTexts ns
  | .footnote _ t | .link t | .mailto t | .xref _ t => optNodesTexts t
  | .concealedTerm .. => []
@[inherit_doc nodeTexts]
def nodesTexts : List Inline → List Text
  | [] => []
  | n :: ns => nodeTexts n ++ nodesTexts ns
@[inherit_doc nodeTexts]
def optNodesTexts : Option (List Inline) → List Text
  | none => []
  | some ns => nodesTexts ns
end

mutual
/-- the texts and footnotes of a text without cross references -/
def nodeAtoms : Inline → List Atom
  | .leaf l => (leafTexts l).map .text
  | .skipped => []
  | .wrap _ ns | .visibleTerm ns => nodesAtoms ns
  | .footnote id t => [.note id (optNodesTexts t)]
  | .link t | .mailto t | .xref _ t => optNodesAtoms t
  | .concealedTerm .. => []
@[inherit_doc nodeAtoms]
def nodesAtoms : List Inline → List Atom
  | [] => []
  | n :: ns => nodeAtoms n ++ nodesAtoms ns
@[inherit_doc nodeAtoms]
def optNodesAtoms : Option (List Inline) → List Atom
  | none => []
  | some ns => nodesAtoms ns
end

mutual
/-- no footnote in the node -/
def noNote : Inline → Bool
  | .leaf _ | .skipped | .concealedTerm .. => true
  | .wrap _ ns | .visibleTerm ns => noNotes ns
  | .footnote .. => false
  | .link t | .mailto t | .xref _ t => optNoNotes t
@[inherit_doc noNote]
def noNotes : List Inline → Bool
  | [] => true
  | n :: ns => noNote n && noNotes ns
@[inherit_doc noNote]
def optNoNotes : Option (List Inline) → Bool
  | none => true
  | some ns => noNotes ns
end

mutual
/-- no footnote inside a footnote -/
def flatNode : Inline → Bool
  | .leaf _ | .skipped | .concealedTerm .. => true
  | .wrap _ ns | .visibleTerm ns => flatNodes ns
  | .footnote _ t => optNoNotes t
  | .link t | .mailto t | .xref _ t => optFlatNodes t
@[inherit_doc flatNode]
def flatNodes : List Inline → Bool
  | [] => true
  | n :: ns => flatNode n && flatNodes ns
@[inherit_doc flatNode]
def optFlatNodes : Option (List Inline) → Bool
  | none => true
  | some ns => flatNodes ns
end

/-- the contexts that show the title of a block -/
def showsTitle : Context → Bool
  | .paragraph | .sidebar | .openBlock | .example | .blockQuote | .verse | .listing | .literal | .image | .admonition
  | .quotedParagraph | .unorderedList | .orderedList | .descriptionList | .table | .audio | .video => true
  | _ => false

/-- not a paragraph with a title -/
def plainParagraph : Block → Prop
  | .mk info title _ _ _ => info.context = .paragraph → title = none

/-- the document title is shown -/
def titleShown (attrs : Meta) : Bool := !attrs.noheader && attrs.showTitle

/-- a document without a hidden title whose paragraphs are shown as such -/
def plainDoc : Doc → Prop
  | .mk attrs title _ _ _ _ _ => attrs.inlineDoctype = false ∧ (title = none ∨ titleShown attrs = true)

/-- a cell with a document: it has no such cells itself -/
def cellOk : Cell → Prop
  | .asciidoc d => plainDoc d ∧ Spec.Captions.NoCellDocuments d
  | _ => True

/-- Blocks whose titles have a place: titles are only where they are shown; an image has
at most one; the paragraphs of a description that starts on the line of its term have
none. -/
def placesTitles : Block → Prop
  | .mk info title _ _ content =>
    (title.isSome = true → showsTitle info.context = true) ∧
    (∀ t l, content = .image t l → title = none ∨ t = none) ∧
    (∀ v items, content = .list v items → ∀ i ∈ items, ∀ p ts d bs, i = .desc p ts (some d) bs → AllBlock plainParagraph d) ∧
    (∀ h rows f, content = .table h rows f → (∀ c ∈ h.getD [], cellOk c) ∧ (∀ r ∈ rows, ∀ c ∈ r, cellOk c) ∧ ∀ c ∈ f.getD [], cellOk c)

/-- every block of the document is such a block -/
def PlacesTitles (d : Doc) : Prop := AllDoc placesTitles d

/-- the texts of the document above its notes, without a hidden document title -/
def bodyTexts : Doc → List (List Inline)
  | .mk attrs title toc head header _ content =>
    docTexts (.mk attrs (if titleShown attrs then title else none) toc head header none content)

/-- the texts after the notes -/
def footTexts : Doc → List (List Inline)
  | .mk attrs _ _ _ _ footer _ => if attrs.embedded then [] else optText footer

/-- the numbers of new footnotes on the page -/
def marksIn : List Shown → List Nat
  | [] => []
  | .mark n :: xs => n :: marksIn xs
  | _ :: xs => marksIn xs

/-- the numbers shown where footnotes are used -/
def numbersIn : List Shown → List Nat
  | [] => []
  | .mark n :: xs | .again n :: xs => n :: numbersIn xs
  | _ :: xs => numbersIn xs

/-- the numbers in front of texts of footnotes -/
def definesIn : List Shown → List Nat
  | [] => []
  | .define n :: xs => n :: definesIn xs
  | _ :: xs => definesIn xs

/-- the names of the footnotes that are used -/
def namesIn : List Atom → List (Option Text)
  | [] => []
  | .text _ :: as => namesIn as
  | .note id _ :: as => id :: namesIn as

/-- The documents the theorems are about: well-formed, titles have a place, the
document type is not `inline`, a document title that is not shown has no footnotes, no
cross references, and no footnotes in footnotes. -/
structure Plain (d : Doc) : Prop where
  formed : WellFormed d
  places : PlacesTitles d
  standalone : ∀ attrs title toc head header footer content, d = .mk attrs title toc head header footer content →
    attrs.inlineDoctype = false ∧ (titleShown attrs = false → ∀ ns, title = some ns → NoXrefs ns ∧ noNotes ns = true)
  noXrefs : ∀ ns ∈ bodyTexts d ++ footTexts d, NoXrefs ns
  flat : ∀ ns ∈ bodyTexts d ++ footTexts d, flatNodes ns = true

/-- the texts and footnotes above the list of notes -/
def bodyAtoms (d : Doc) : List Atom := (bodyTexts d).flatMap nodesAtoms

/-- the texts and footnotes below the list of notes -/
def footAtoms (d : Doc) : List Atom := (footTexts d).flatMap nodesAtoms

end Verif.Spec.Notes

import Verif.Model.Eval
/-! Specification vocabulary for the evaluator: properly nested calls, well-formed
trees, and the texts of a document in document order. -/
namespace Verif.Spec.Eval
open Verif.Ast Verif.Eval

/-- A properly nested sequence of calls: `visit_…` calls, and pairs of `enter_…`
and `exit_…` with the same arguments around properly nested sequences. -/
inductive Nested : List Ev → Prop
  | nil : Nested []
  | visit (v : Visit) : Nested [.visit v]
  | pair (c : Call) {evs : List Ev} : Nested evs → Nested (.enter c :: (evs ++ [.exit c]))
  | append {as bs : List Ev} : Nested as → Nested bs → Nested (as ++ bs)

/-- the calls of a trace that print text, in order -/
def leaves : List Ev → List Leaf
  | [] => []
  | .visit (.leaf l) :: evs => l :: leaves evs
  | _ :: evs => leaves evs

/-- the content a block of the given context has after parsing -/
def Fits : Context → Content → Bool
  | .paragraph, .simple _ | .sidebar, .simple _ | .listing, .simple _ | .verse, .simple _
  | .blockQuote, .simple _ | .example, .simple _ | .admonition, .simple _ | .literal, .simple _
  | .passthrough, .simple _ => true
  | .sidebar, .compound _ | .blockQuote, .compound _ | .openBlock, .compound _ | .example, .compound _
  | .admonition, .compound _ => true
  | .quotedParagraph, .quoted .. => true
  | .orderedList, .list _ items | .unorderedList, .list _ items | .calloutList, .list _ items => items.all fun
    | .plain .. => true
    | .desc .. => false
  | .descriptionList, .list _ items => items.all fun
    | .desc .. => true
    | .plain .. => false
  | .sectionBlock, .section _ => true
  | .table, .table .. => true
  | .image, .image .. => true
  | .audio, .audioVideo | .video, .audioVideo => true
  | .discreteHeading, .heading .. => true
  | .documentAttributeDecl, .declaration _ => true
  | .thematicBreak, .empty | .pageBreak, .empty | .tableOfContents, .empty | .comment, .empty => true
  | _, _ => false

mutual
/-- Every block in the tree satisfies `p`. -/
def AllBlock (p : Block → Prop) : Block → Prop
  | .mk info title attribution cite content => p (.mk info title attribution cite content) ∧ AllContent p content
@[inherit_doc AllBlock]
def AllContent (p : Block → Prop) : Content → Prop
  | .compound bs => AllBlocks p bs
  | .list _ items => AllItems p items
  | .section s => AllSect p s
  | .table header rows footer =>
    AllEdge p header ∧ AllRows p rows ∧ AllEdge p footer
  | _ => True
@[inherit_doc AllBlock]
def AllBlocks (p : Block → Prop) : List Block → Prop
  | [] => True
  | b :: bs => AllBlock p b ∧ AllBlocks p bs
@[inherit_doc AllBlock]
def AllOptBlock (p : Block → Prop) : Option Block → Prop
  | none => True
  | some b => AllBlock p b
@[inherit_doc AllBlock]
def AllOptBlocks (p : Block → Prop) : Option (List Block) → Prop
  | none => True
  | some bs => AllBlocks p bs
@[inherit_doc AllBlock]
def AllEdge (p : Block → Prop) : Option (List Cell) → Prop
  | none => True
  | some cs => AllCells p cs
@[inherit_doc AllBlock]
def AllItem (p : Block → Prop) : Item → Prop
  | .plain _ blocks => AllBlocks p blocks
  | .desc _ _ description blocks =>
    AllOptBlock p description ∧ AllBlocks p blocks
@[inherit_doc AllBlock]
def AllItems (p : Block → Prop) : List Item → Prop
  | [] => True
  | i :: is => AllItem p i ∧ AllItems p is
@[inherit_doc AllBlock]
def AllSect (p : Block → Prop) : Sect → Prop
  | .mk _ _ blocks => AllBlocks p blocks
@[inherit_doc AllBlock]
def AllSects (p : Block → Prop) : List Sect → Prop
  | [] => True
  | s :: ss => AllSect p s ∧ AllSects p ss
@[inherit_doc AllBlock]
def AllCell (p : Block → Prop) : Cell → Prop
  | .asciidoc d => AllDoc p d
  | _ => True
@[inherit_doc AllBlock]
def AllCells (p : Block → Prop) : List Cell → Prop
  | [] => True
  | c :: cs => AllCell p c ∧ AllCells p cs
@[inherit_doc AllBlock]
def AllRows (p : Block → Prop) : List (List Cell) → Prop
  | [] => True
  | r :: rs => AllCells p r ∧ AllRows p rs
@[inherit_doc AllBlock]
def AllPart (p : Block → Prop) : Part → Prop
  | .mk _ _ intro sections =>
    AllOptBlocks p intro ∧ AllSects p sections
@[inherit_doc AllBlock]
def AllParts (p : Block → Prop) : List Part → Prop
  | [] => True
  | q :: qs => AllPart p q ∧ AllParts p qs
@[inherit_doc AllBlock]
def AllDocContent (p : Block → Prop) : DocContent → Prop
  | .blocks bs => AllBlocks p bs
  | .sections preamble sections =>
    AllOptBlocks p preamble ∧ AllSects p sections
  | .parts preamble opening parts closing =>
    AllOptBlocks p preamble ∧ AllSects p opening ∧ AllParts p parts ∧ AllSects p closing
@[inherit_doc AllBlock]
def AllDoc (p : Block → Prop) : Doc → Prop
  | .mk _ _ _ _ _ _ content => AllDocContent p content
end

/-- Every block of the document has the kind of content its context asks for. -/
def WellFormed (d : Doc) : Prop := AllDoc (fun
  | .mk info _ _ _ content => Fits info.context content = true) d

/-- the texts of an optional text -/
def optText : Option (List Inline) → List (List Inline)
  | none => []
  | some ns => [ns]

mutual
/-- the titles in a table of contents, top to bottom -/
def tocNodeTexts : TocNode → List (List Inline)
  | .mk _ title children => title :: tocTexts children
@[inherit_doc tocNodeTexts]
def tocTexts : List TocNode → List (List Inline)
  | [] => []
  | n :: ns => tocNodeTexts n ++ tocTexts ns
end

/-- the titles printed at a place where the table of contents goes if it has one
of the given positions -/
def tocTextsAt (toc : Option Toc) (positions : List TocPosition) : List (List Inline) :=
  match toc with
  | none => []
  | some t => if t.position ∈ positions then tocTexts t.nodes else []

mutual
/-- The texts of a block in document order: title, content, attribution, citation. -/
def blockTexts (toc : Option Toc) : Block → List (List Inline)
  | .mk info title attribution cite content =>
    optText title ++ contentTexts toc info.context content ++
      (if info.context = .verse ∨ info.context = .blockQuote then optText attribution ++ optText cite else [])
@[inherit_doc blockTexts]
def contentTexts (toc : Option Toc) (c : Context) : Content → List (List Inline)
  | .simple ns => [ns]
  | .compound bs => blocksTexts toc bs
  | .quoted quote attribution cite => quote :: attribution :: optText cite
  | .list _ items => itemsTexts toc items
  | .section s => sectTexts toc s
  | .table header rows footer => edgeTexts header ++ rowsTexts rows ++ edgeTexts footer
  | .image .. | .audioVideo | .declaration _ => []
  | .heading _ ns => [ns]
  | .empty => if c = .tableOfContents then tocTextsAt toc [.byMacro] else []
@[inherit_doc blockTexts]
def blocksTexts (toc : Option Toc) : List Block → List (List Inline)
  | [] => []
  | b :: bs => blockTexts toc b ++ blocksTexts toc bs
/-- a list item: its text, or its terms and its description; then its blocks -/
def itemTexts (toc : Option Toc) : Item → List (List Inline)
  | .plain principle blocks => principle :: blocksTexts toc blocks
  | .desc principle terms description blocks =>
    principle :: terms ++
      (match description with
        | none => []
        | some d => blockTexts toc d) ++ blocksTexts toc blocks
@[inherit_doc itemTexts]
def itemsTexts (toc : Option Toc) : List Item → List (List Inline)
  | [] => []
  | i :: is => itemTexts toc i ++ itemsTexts toc is
/-- a section: its heading, then its blocks -/
def sectTexts (toc : Option Toc) : Sect → List (List Inline)
  | .mk _ heading blocks => heading :: blocksTexts toc blocks
@[inherit_doc sectTexts]
def sectsTexts (toc : Option Toc) : List Sect → List (List Inline)
  | [] => []
  | s :: ss => sectTexts toc s ++ sectsTexts toc ss
/-- a cell: its paragraphs, or the document in it -/
def cellTexts : Cell → List (List Inline)
  | .paragraphs _ ps => ps
  | .literal ns => [ns]
  | .asciidoc d => docTexts d
@[inherit_doc cellTexts]
def cellsTexts : List Cell → List (List Inline)
  | [] => []
  | c :: cs => cellTexts c ++ cellsTexts cs
@[inherit_doc cellTexts]
def edgeTexts : Option (List Cell) → List (List Inline)
  | none => []
  | some cs => cellsTexts cs
@[inherit_doc cellTexts]
def rowsTexts : List (List Cell) → List (List Inline)
  | [] => []
  | r :: rs => cellsTexts r ++ rowsTexts rs
/-- a part: its title, its introduction with its title, its sections -/
def partTexts (toc : Option Toc) : Part → List (List Inline)
  | .mk title blockTitle intro sections =>
    title :: (match intro with
      | none => []
      | some blocks => optText blockTitle ++ blocksTexts toc blocks) ++ sectsTexts toc sections
@[inherit_doc partTexts]
def partsTexts (toc : Option Toc) : List Part → List (List Inline)
  | [] => []
  | p :: ps => partTexts toc p ++ partsTexts toc ps
/-- the content of a document; a table of contents in the preamble is at its end -/
def docContentTexts (toc : Option Toc) : DocContent → List (List Inline)
  | .blocks bs => blocksTexts toc bs
  | .sections none sections => sectsTexts toc sections
  | .sections (some blocks) sections => blocksTexts toc blocks ++ tocTextsAt toc [.preamble] ++ sectsTexts toc sections
  | .parts none opening parts closing => sectsTexts toc opening ++ partsTexts toc parts ++ sectsTexts toc closing
  | .parts (some blocks) opening parts closing =>
    blocksTexts toc blocks ++ sectsTexts toc opening ++ tocTextsAt toc [.preamble] ++ partsTexts toc parts ++ sectsTexts toc closing
/-- The texts of a document in document order. -/
def docTexts : Doc → List (List Inline)
  | .mk attrs title toc head header footer content =>
    (if attrs.embedded then [] else optText head ++ optText header) ++ optText title ++
      tocTextsAt toc [.auto, .left, .right] ++ docContentTexts toc content ++
      (if attrs.embedded then [] else optText footer)
end

mutual
/-- The texts of a node in document order, for nodes without cross references.
`visible` and `concealed`: what is done with index terms. -/
def nodeLeaves (visible concealed : Bool) : Inline → List Leaf
  | .leaf l => [l]
  | .skipped => []
  | .wrap _ ns => nodesLeaves visible concealed ns
  | .footnote _ t | .link t | .mailto t | .xref _ t => optLeaves visible concealed t
  | .visibleTerm ns => if visible then nodesLeaves visible concealed ns else []
  | .concealedTerm p s t =>
    if concealed then nodesLeaves visible concealed p ++ optLeaves visible concealed s ++ optLeaves visible concealed t else []
@[inherit_doc nodeLeaves]
def nodesLeaves (visible concealed : Bool) : List Inline → List Leaf
  | [] => []
  | n :: ns => nodeLeaves visible concealed n ++ nodesLeaves visible concealed ns
@[inherit_doc nodeLeaves]
def optLeaves (visible concealed : Bool) : Option (List Inline) → List Leaf
  | none => []
  | some ns => nodesLeaves visible concealed ns
end

mutual
/-- No cross reference in the node. -/
def NoXref : Inline → Prop
  | .leaf _ | .skipped => True
  | .wrap _ ns | .visibleTerm ns => NoXrefs ns
  | .footnote _ t | .link t | .mailto t => NoXrefO t
  | .xref .. => False
  | .concealedTerm p s t => NoXrefs p ∧ NoXrefO s ∧ NoXrefO t
@[inherit_doc NoXref]
def NoXrefs : List Inline → Prop
  | [] => True
  | n :: ns => NoXref n ∧ NoXrefs ns
@[inherit_doc NoXref]
def NoXrefO : Option (List Inline) → Prop
  | none => True
  | some ns => NoXrefs ns
end

mutual
/-- the ids a node refers to, in document order -/
def nodeTargets : Inline → List Text
  | .leaf _ | .skipped => []
  | .wrap _ ns | .visibleTerm ns => targets ns
  | .footnote _ t | .link t | .mailto t => optTargets t
  | .xref id t => id :: optTargets t
  | .concealedTerm p s t => targets p ++ optTargets s ++ optTargets t
/-- the ids a text refers to, in document order -/
def targets : List Inline → List Text
  | [] => []
  | n :: ns => nodeTargets n ++ targets ns
@[inherit_doc targets]
def optTargets : Option (List Inline) → List Text
  | none => []
  | some ns => targets ns
end

/-- the texts of an anchor -/
def anchorTexts (a : Anchor) : List (List Inline) := a.title :: optText a.reftext

/-- the anchor `id` exists and one of its texts refers to `t` -/
def RefersTo (env : Env) (id t : Text) : Prop := ∃ a, env.anchors id = some a ∧ ∃ text ∈ anchorTexts a, t ∈ targets text

/-- No anchor refers to itself through any chain of anchor texts: the references
can be ranked. -/
def Acyclic (env : Env) : Prop := ∃ rank : Text → Nat, ∀ id t, RefersTo env id t → rank t < rank id

/-- The evaluation of the document comes to an end: some bound on nested anchor
texts is never reached. -/
def Terminates (env : Env) (d : Doc) : Prop := ∃ n, .bound ∉ trace env n d

end Verif.Spec.Eval

import Verif.Spec.Eval
import Verif.Spec.Html
/-! Specification of numbered captions. -/
namespace Verif.Spec.Captions
open Verif.Ast Verif.Html

mutual
/-- A block and the blocks inside it in document order, table cells left out. -/
def blockBlocks : Block → List Block
  | .mk info title attribution cite content => .mk info title attribution cite content :: contentBlocks content
@[inherit_doc blockBlocks]
def contentBlocks : Content → List Block
  | .compound bs => blocksBlocks bs
  | .list _ items => itemsBlocks items
  | .section s => sectBlocks s
  | _ => []
@[inherit_doc blockBlocks]
def blocksBlocks : List Block → List Block
  | [] => []
  | b :: bs => blockBlocks b ++ blocksBlocks bs
@[inherit_doc blockBlocks]
def optBlocks : Option Block → List Block
  | none => []
  | some b => blockBlocks b
@[inherit_doc blockBlocks]
def itemBlocks : Item → List Block
  | .plain _ blocks => blocksBlocks blocks
  | .desc _ _ description blocks => optBlocks description ++ blocksBlocks blocks
@[inherit_doc blockBlocks]
def itemsBlocks : List Item → List Block
  | [] => []
  | i :: is => itemBlocks i ++ itemsBlocks is
@[inherit_doc blockBlocks]
def sectBlocks : Sect → List Block
  | .mk _ _ blocks => blocksBlocks blocks
end
/-- sections in order -/
def sectsBlocks (ss : List Sect) : List Block := ss.flatMap sectBlocks
/-- blocks of an optional introduction -/
def introBlocks : Option (List Block) → List Block
  | none => []
  | some bs => blocksBlocks bs
/-- a part: its introduction, its sections -/
def partBlocks : Part → List Block
  | .mk _ _ intro sections => introBlocks intro ++ sectsBlocks sections
/-- The blocks of a document in document order, table cells left out. -/
def docBlocks : Doc → List Block
  | .mk _ _ _ _ _ _ content => match content with
    | .blocks bs => blocksBlocks bs
    | .sections preamble sections => introBlocks preamble ++ sectsBlocks sections
    | .parts preamble opening parts closing =>
      introBlocks preamble ++ sectsBlocks opening ++ parts.flatMap partBlocks ++ sectsBlocks closing

/-- The kind of numbered blocks a block belongs to. -/
def kindOf : Context → Option Kind
  | .table => some .table
  | .image => some .figure
  | .example => some .example
  | .listing => some .listing
  | _ => none

/-- the label in front of the number, if attributes set one -/
def labels (m : Meta) : Kind → Option Text
  | .table => m.tableCaption
  | .figure => m.figureCaption
  | .example => m.exampleCaption
  | .listing => m.listingCaption

/-- The block has a title that is shown with a caption: its own title or, for
images, one in the image macro. Collapsible blocks show theirs differently. -/
def showsTitle : Block → Bool
  | .mk _ title _ _ (.image macroTitle _) => title.isSome || macroTitle.isSome
  | .mk info title _ _ _ => title.isSome && !(decide (info.context = .example) && info.collapsible)

/-- Kind and label of the number a block gets, if it gets one: it has a title, no
caption of its own, and there is a label for its kind. -/
def captionOf (labels : Kind → Option Text) (b : Block) : Option (Kind × Text) :=
  match b with
  | .mk info _ _ _ _ =>
    if showsTitle b ∧ info.caption = none then
      (kindOf info.context).bind fun k => (labels k).map fun l => (k, l)
    else none

/-- the attributes after a block, if it is an attribute declaration -/
def declared : Block → Option Meta
  | .mk _ _ _ _ (.declaration after) => some after
  | _ => none

/-- The captions of blocks in order, with the labels that are set and the number of
captions of each kind before them: each one gets the next number of its kind. -/
def captions : (Kind → Option Text) → (Kind → Nat) → List Block → List (Kind × Text × Nat)
  | _, _, [] => []
  | ls, before, b :: bs =>
    match declared b with
    | some after => captions (labels after) before bs
    | none => match captionOf ls b with
      | some (k, l) => (k, l, before k + 1) :: captions ls (fun j => if j = k then before j + 1 else before j) bs
      | none => captions ls before bs

/-- the captions in output -/
def captionsIn : List Tok → List (Kind × Text × Nat)
  | [] => []
  | .caption k l n :: ts => (k, l, n) :: captionsIn ts
  | _ :: ts => captionsIn ts

/-- not a cell with a document of its own -/
def simpleCell : Cell → Bool
  | .asciidoc _ => false
  | _ => true

/-- tables without cells that have documents of their own -/
def simpleTable : Block → Prop
  | .mk _ _ _ _ (.table header rows footer) =>
    (∀ r ∈ rows, r.all simpleCell = true) ∧ (header.getD []).all simpleCell = true ∧ (footer.getD []).all simpleCell = true
  | _ => True

/-- no table of the document has cells with documents of their own -/
def NoCellDocuments (d : Doc) : Prop := Eval.AllDoc simpleTable d

end Verif.Spec.Captions

import Verif.Model.Ast
/-! Model of the evaluator `eval/src/eval.rs`: which calls it makes on a backend,
in which order. -/
namespace Verif.Eval
open Verif.Ast

/-- which `CellContent` a cell has (ast/src/table.rs:20-30) -/
inductive CellKind
  | paragraphs (style : CellStyle) | literal | asciidoc
  deriving DecidableEq, Repr

/-- The calls that come in pairs `enter_…`/`exit_…` (backend/src/backend.rs:22-283)
and the arguments the HTML backend looks at. `visit` of an AsciiDoc cell with its
own backend, between `asciidoc_table_cell_backend` and
`visit_asciidoc_table_cell_result` (eval/src/eval.rs:674-678), is the pair
`cellDocument`. -/
inductive Call
  | document (m : Meta) | body | header | content | footer | documentTitle
  | preamble (docHasTitle : Bool)
  | toc (position : TocPosition) | tocLevel | tocNode | tocContent
  | section (s : SectInfo) | sectionHeading (s : SectInfo)
  | part | partTitle | partIntro (hasTitle : Bool) | partIntroContent (hasTitle : Bool)
  | metaTitle (b : BlockInfo)
  | simpleContent (b : BlockInfo) | compoundContent
  | paragraph (b : BlockInfo) | sidebar (b : BlockInfo) | openBlock (b : BlockInfo) | example (b : BlockInfo)
  | quote (b : BlockInfo) (hasAttribution : Bool) | verse (b : BlockInfo) (hasAttribution : Bool)
  | listing (b : BlockInfo) | literal (b : BlockInfo) | passthrough (b : BlockInfo)
  | image (b : BlockInfo) (title : Option Text) (link : Bool)
  | admonition (b : BlockInfo) (compound : Bool)
  | quoteAttribution (b : BlockInfo) (hasCite : Bool) | quoteCite (b : BlockInfo) (hasAttribution : Bool)
  | quotedParagraph (b : BlockInfo)
  | discreteHeading (level : Nat)
  | unorderedList (b : BlockInfo) | orderedList (b : BlockInfo) | calloutList (b : BlockInfo)
  | descriptionList (b : BlockInfo)
  /-- `bare`: the first attached block, if any, is not a simple one -/
  | term (num : Nat) | description | descriptionText (bare : Bool) | descriptionBlock
  /-- `para`: the first attached block is neither a list nor empty -/
  | itemPrincipal (v : Variant) (para : Bool) | itemBlocks (v : Variant)
  | table (b : BlockInfo) | tableSection (s : TableSection) | row | cell (kind : CellKind) (s : TableSection)
  /-- `multi`: the cell has more than one paragraph -/
  | cellParagraph (style : CellStyle) (s : TableSection) (multi : Bool)
  | cellDocument
  | wrap (k : Wrap) | footnote (id : Option Text) | link (inXref hasText : Bool) | mailto (hasText : Bool)
  | xref (target : Text) | xrefText (biblio : Bool)
  | visibleTerm | concealedTerm | primaryTerm | secondaryTerm | tertiaryTerm
  deriving DecidableEq, Repr

/-- The `visit_…` calls. -/
inductive Visit
  | leaf (l : Leaf) | missingXref (target : Text)
  | thematicBreak | pageBreak | audio (b : BlockInfo) | video (b : BlockInfo)
  | declaration (after : Meta)
  deriving DecidableEq, Repr

/-- What happens during evaluation: calls on the backend, or a panic (`todo!()`,
`unreachable!()`), or, in evaluations with a bound on nested cross references,
the bound being reached. Nothing that comes after the last two happens. -/
inductive Ev
  | enter (c : Call) | exit (c : Call) | visit (v : Visit) | panic | bound
  deriving DecidableEq, Repr

/-- A call that comes in a pair: `enter`, what happens inside, `exit`. -/
def around (c : Call) (evs : List Ev) : List Ev := .enter c :: (evs ++ [.exit c])

/-- `ctx.doc.anchors`, and what the backend answers to `enter_visible_index_term`
and `enter_concealed_index_term`. -/
structure Env where
  anchors : Text → Option Anchor
  entersVisible : Bool
  entersConcealed : Bool

/-- evaluation of a list of nodes with `resolving_xref` before and after -/
abbrev Jump := List Inline → Bool → List Ev × Bool

/-- What is called inside an xref (eval/src/eval.rs:527-548). `own` is its link
text: whether it is empty, and the calls for it. The text shown is the anchor's
`reftext`, else the link text, else the anchor's title, unless it is empty; then
the link text, if there is one. -/
def xrefInner (env : Env) (jump : Jump) (target : Text) (own : Option (Bool × List Ev)) (resolving : Bool) : List Ev :=
  let anchor := env.anchors target
  let biblio := match anchor with
    | none => false
    | some a => a.isBiblio
  let shown (evs : List Ev) : List Ev := around (.xrefText biblio) evs
  let missing : List Ev := [.visit (.missingXref target)]
  let fallback : List Ev := match own with
    | some (_, evs) => shown evs
    | none => missing
  if resolving then missing
  else match anchor with
    | none => fallback
    | some a => match a.reftext, own with
      | some text, _ => if text.isEmpty then fallback else shown (jump text true).1
      | none, some (isEmpty, evs) => if isEmpty then fallback else shown evs
      | none, none => if a.title.isEmpty then fallback else shown (jump a.title true).1

mutual
/-- `eval_inline` and `eval_index_term` (eval/src/eval.rs:445-634). The flag is
`resolving_xref`; `jump` evaluates the text of an anchor, which is not part of
the node being evaluated. -/
def evalInline (env : Env) (jump : Jump) : Inline → Bool → List Ev × Bool
  | .leaf l, f => ([.visit (.leaf l)], f)
  | .skipped, f => ([], f)
  | .wrap k children, f =>
    let r := evalInlines env jump children f
    (around (.wrap k) r.1, r.2)
  | .footnote id none, f => (around (.footnote id) [], f)
  | .footnote id (some text), f =>
    let r := evalInlines env jump text f
    (around (.footnote id) r.1, r.2)
  | .link none, f => (around (.link f false) [], f)
  | .link (some text), f =>
    let r := evalInlines env jump text f
    (around (.link f true) r.1, r.2)
  | .mailto none, f => (around (.mailto false) [], f)
  | .mailto (some text), f =>
    let r := evalInlines env jump text f
    (around (.mailto true) r.1, r.2)
  | .xref target none, f => (around (.xref target) (xrefInner env jump target none f), false)
  | .xref target (some text), f =>
    (around (.xref target) (xrefInner env jump target (some (text.isEmpty, (evalInlines env jump text true).1)) f), false)
  | .visibleTerm term, f =>
    if env.entersVisible then
      let r := evalInlines env jump term f
      (.enter .visibleTerm :: r.1, r.2)
    else ([.enter .visibleTerm], f)
  | .concealedTerm primary secondary tertiary, f =>
    if env.entersConcealed then
      let r1 := evalInlines env jump primary f
      let r2 := evalTerm env jump .secondaryTerm secondary r1.2
      let r3 := evalTerm env jump .tertiaryTerm tertiary r2.2
      (around .concealedTerm (around .primaryTerm r1.1 ++ r2.1 ++ r3.1), r3.2)
    else (around .concealedTerm [], f)
@[inherit_doc evalInline]
def evalInlines (env : Env) (jump : Jump) : List Inline → Bool → List Ev × Bool
  | [], f => ([], f)
  | n :: ns, f =>
    let r := evalInline env jump n f
    let r' := evalInlines env jump ns r.2
    (r.1 ++ r'.1, r'.2)
/-- an optional part of a concealed index term -/
def evalTerm (env : Env) (jump : Jump) (c : Call) : Option (List Inline) → Bool → List Ev × Bool
  | none, f => ([], f)
  | some ns, f =>
    let r := evalInlines env jump ns f
    (around c r.1, r.2)
end

/-- The recursion of `eval_inline` through the texts of anchors, cut off after
`n` nested ones: the program's run is the one for a large enough `n`, if there
is one. -/
def evalJump (env : Env) : Nat → Jump
  | 0 => fun _ f => ([.bound], f)
  | n + 1 => evalInlines env (evalJump env n)

/-- A list of nodes evaluated outside any xref. The flag is false whenever the
evaluator starts such a list (`flag_false`), so it does not appear from here on. -/
def inlines (env : Env) (n : Nat) (ns : List Inline) : List Ev := (evalInlines env (evalJump env n) ns false).1

section
variable (inl : List Inline → List Ev)

/-- `eval_quote_attr` (eval/src/eval.rs:636-653). -/
def evalQuoteAttr (b : BlockInfo) (attribution cite : Option (List Inline)) : List Ev :=
  (match attribution with
    | some ns => around (.quoteAttribution b cite.isSome) (inl ns)
    | none => []) ++
  (match cite with
    | some ns => around (.quoteCite b attribution.isSome) (inl ns)
    | none => [])

mutual
/-- `eval_toc_level` (eval/src/eval.rs:702-715), the loop and its body; the calls
around the level are in `evalTocLevel`. -/
def evalTocNode : TocNode → List Ev
  | .mk _ title children =>
    around .tocNode (around .tocContent (inl title) ++
      (match children with
        | [] => []
        | c :: cs => around .tocLevel (evalTocNode c ++ evalTocNodes cs)))
@[inherit_doc evalTocNode]
def evalTocNodes : List TocNode → List Ev
  | [] => []
  | n :: ns => evalTocNode n ++ evalTocNodes ns
end

/-- `eval_toc_at` (eval/src/eval.rs:685-700). -/
def evalTocAt (toc : Option Toc) (positions : List TocPosition) : List Ev :=
  match toc with
  | none => []
  | some t =>
    if t.position ∉ positions ∨ t.nodes = [] then []
    else around (.toc t.position) (around .tocLevel (evalTocNodes inl t.nodes))

/-- `backend.enter_simple_block_content`, the children, `exit_…` -/
def simple (b : BlockInfo) (ns : List Inline) : List Ev := around (.simpleContent b) (inl ns)

/-- the optional title in front of a block (eval/src/eval.rs:159-163) -/
def evalTitle (b : BlockInfo) : Option (List Inline) → List Ev
  | none => []
  | some ns => around (.metaTitle b) (inl ns)

/-- the terms of a description list item after the first
(eval/src/eval.rs:345-349) -/
def evalTerms : Nat → List (List Inline) → List Ev
  | _, [] => []
  | i, t :: ts => around (.term i) (inl t) ++ evalTerms (i + 1) ts

/-- the paragraphs of a cell (eval/src/eval.rs:665-669) -/
def evalCellParagraphs (style : CellStyle) (s : TableSection) (multi : Bool) : List (List Inline) → List Ev
  | [] => []
  | p :: ps => around (.cellParagraph style s multi) (inl p) ++ evalCellParagraphs style s multi ps

/-- the docinfo texts, not for embedded documents (eval/src/eval.rs:22-31,
50-52, 57-64) -/
def evalDocinfo (embedded : Bool) : Option (List Inline) → List Ev
  | none => []
  | some ns => if embedded then [] else inl ns

/-- the document title (eval/src/eval.rs:32-39) -/
def evalDocTitle : Option (List Inline) → List Ev
  | none => []
  | some ns => around .documentTitle (inl ns)

/-- what the backend is shown of a block -/
def view (info : BlockInfo) (title : Option (List Inline)) : BlockInfo := { info with hasTitle := title.isSome }

/-- the test of `enter_list_item_principal` on the attached blocks
(backend-html5s/src/html5s.rs:631-638) -/
def opensPara : List Block → Bool
  | [] => false
  | .mk _ _ _ _ (.list ..) :: _ | .mk _ _ _ _ .empty :: _ | .mk _ _ _ _ (.image ..) :: _ | .mk _ _ _ _ .audioVideo :: _
  | .mk _ _ _ _ (.heading ..) :: _ => false
  | _ :: _ => true

/-- the test of `enter_description_list_description_text` on the attached blocks
(backend-html5s/src/html5s.rs:592-597) -/
def bareText : List Block → Bool
  | .mk _ _ _ _ (.simple _) :: _ => false
  | _ => true

/-- the arms that accept any content (eval/src/eval.rs:423-441) -/
def evalOther (toc : Option Toc) : Context → List Ev
  | .thematicBreak => [.visit .thematicBreak]
  | .pageBreak => [.visit .pageBreak]
  | .tableOfContents => evalTocAt inl toc [.byMacro]
  | .comment => []
  | _ => [.panic]

mutual
/-- `eval_block` (eval/src/eval.rs:158-443). `toc` is `ctx.doc.toc`. -/
def evalBlock (toc : Option Toc) : Block → List Ev
  | .mk info title attribution cite content =>
    let b := view info title
    evalTitle inl b title ++ evalContent toc b attribution cite content
/-- the big `match` of `eval_block` (eval/src/eval.rs:164-442) -/
def evalContent (toc : Option Toc) (b : BlockInfo) (attribution cite : Option (List Inline)) : Content → List Ev
  | .simple ns =>
    match b.context with
    | .paragraph => around (.paragraph b) (simple inl b ns)
    | .sidebar => around (.sidebar b) (simple inl b ns)
    | .listing => around (.listing b) (simple inl b ns)
    | .verse =>
      let has := attribution.isSome || cite.isSome
      around (.verse b has) (simple inl b ns ++ evalQuoteAttr inl b attribution cite)
    | .blockQuote =>
      let has := attribution.isSome || cite.isSome
      around (.quote b has) (simple inl b ns ++ evalQuoteAttr inl b attribution cite)
    | .example => around (.example b) (simple inl b ns)
    | .admonition => around (.admonition b false) (inl ns)
    | .literal => around (.literal b) (simple inl b ns)
    | .passthrough => around (.passthrough b) (simple inl b ns)
    | c => evalOther inl toc c
  | .compound bs =>
    let inside : List Ev := around .compoundContent (evalBlocks toc bs)
    match b.context with
    | .sidebar => around (.sidebar b) inside
    | .blockQuote =>
      let has := attribution.isSome || cite.isSome
      around (.quote b has) (inside ++ evalQuoteAttr inl b attribution cite)
    | .openBlock => around (.openBlock b) inside
    | .example => around (.example b) inside
    | .admonition => around (.admonition b true) inside
    | c => evalOther inl toc c
  | .quoted quote attr cite =>
    match b.context with
    | .quotedParagraph => around (.quotedParagraph b) (inl quote ++ evalQuoteAttr inl b (some attr) cite)
    | c => evalOther inl toc c
  | .list variant items =>
    match b.context with
    | .orderedList => around (.orderedList b) (evalItems toc variant items)
    | .unorderedList => around (.unorderedList b) (evalItems toc variant items)
    | .calloutList => around (.calloutList b) (evalItems toc variant items)
    | .descriptionList => around (.descriptionList b) (evalDescItems toc items)
    | c => evalOther inl toc c
  | .section s =>
    match b.context with
    | .sectionBlock => evalSect toc s
    | c => evalOther inl toc c
  | .table header rows footer =>
    match b.context with
    | .table =>
      around (.table b) (evalEdge .header header ++ evalBody rows ++ evalEdge .footer footer)
    | c => evalOther inl toc c
  | .image title link =>
    match b.context with
    | .image => around (.image b title link) []
    | c => evalOther inl toc c
  | .audioVideo =>
    match b.context with
    | .audio => [.visit (.audio b)]
    | .video => [.visit (.video b)]
    | c => evalOther inl toc c
  | .heading level ns =>
    match b.context with
    | .discreteHeading => around (.discreteHeading level) (inl ns)
    | c => evalOther inl toc c
  | .declaration after =>
    match b.context with
    | .documentAttributeDecl => [.visit (.declaration after)]
    | c => evalOther inl toc c
  | .empty => evalOther inl toc b.context
/-- blocks in order -/
def evalBlocks (toc : Option Toc) : List Block → List Ev
  | [] => []
  | b :: bs => evalBlock toc b ++ evalBlocks toc bs
/-- items of ordered, unordered and callout lists (eval/src/eval.rs:287-296) -/
def evalItem (toc : Option Toc) (v : Variant) : Item → List Ev
  | .plain principle blocks =>
    around (.itemPrincipal v (opensPara blocks)) (inl principle) ++
      around (.itemBlocks v) (evalBlocks toc blocks)
  | .desc principle _ _ blocks =>
    around (.itemPrincipal v (opensPara blocks)) (inl principle) ++
      around (.itemBlocks v) (evalBlocks toc blocks)
@[inherit_doc evalItem]
def evalItems (toc : Option Toc) (v : Variant) : List Item → List Ev
  | [] => []
  | i :: is => evalItem toc v i ++ evalItems toc v is
/-- items of description lists (eval/src/eval.rs:333-366) -/
def evalDescItem (toc : Option Toc) : Item → List Ev
  | .plain _ _ => [.panic]
  | .desc principle extra description blocks =>
    evalTerms inl 1 (principle :: extra) ++
      (match description, blocks with
        | none, [] => []
        | none, b :: bs => around .description (around .descriptionBlock (evalBlock toc b) ++ evalDescBlocks toc bs)
        | some d, bs =>
          around .description (around (.descriptionText (bareText bs)) (evalBlock toc d) ++ evalDescBlocks toc bs))
@[inherit_doc evalDescItem]
def evalDescItems (toc : Option Toc) : List Item → List Ev
  | [] => []
  | i :: is => evalDescItem toc i ++ evalDescItems toc is
@[inherit_doc evalDescItem]
def evalDescBlocks (toc : Option Toc) : List Block → List Ev
  | [] => []
  | b :: bs => around .descriptionBlock (evalBlock toc b) ++ evalDescBlocks toc bs
/-- `eval_section` (eval/src/eval.rs:143-156) -/
def evalSect (toc : Option Toc) : Sect → List Ev
  | .mk info heading blocks =>
    around (.section info) (around (.sectionHeading info) (inl heading) ++ evalBlocks toc blocks)
@[inherit_doc evalSect]
def evalSects (toc : Option Toc) : List Sect → List Ev
  | [] => []
  | s :: ss => evalSect toc s ++ evalSects toc ss
/-- `eval_table_row` (eval/src/eval.rs:655-683) -/
def evalCell (s : TableSection) : Cell → List Ev
  | .paragraphs style ps =>
    around (.cell (.paragraphs style) s) (evalCellParagraphs inl style s (decide (1 < ps.length)) ps)
  | .literal ns => around (.cell .literal s) (inl ns)
  | .asciidoc d => around (.cell .asciidoc s) (around .cellDocument (visit d))
@[inherit_doc evalCell]
def evalCells (s : TableSection) : List Cell → List Ev
  | [] => []
  | c :: cs => evalCell s c ++ evalCells s cs
/-- the optional header or footer row (eval/src/eval.rs:388-392, 401-405) -/
def evalEdge (s : TableSection) : Option (List Cell) → List Ev
  | none => []
  | some cells => around (.tableSection s) (around .row (evalCells s cells))
/-- the body of a table (eval/src/eval.rs:393-400) -/
def evalBody : List (List Cell) → List Ev
  | [] => []
  | r :: rs => around (.tableSection .body) (around .row (evalCells .body r) ++ evalRows rs)
@[inherit_doc evalCell]
def evalRows : List (List Cell) → List Ev
  | [] => []
  | r :: rs => around .row (evalCells .body r) ++ evalRows rs
/-- `eval_book_part` (eval/src/eval.rs:117-141) -/
def evalPart (toc : Option Toc) : Part → List Ev
  | .mk title blockTitle intro sections =>
    around .part (around .partTitle (inl title) ++
      (match intro with
        | none => []
        | some blocks =>
          around (.partIntro blockTitle.isSome)
            ((match blockTitle with
              | none => []
              | some ns => inl ns) ++
            around (.partIntroContent blockTitle.isSome) (evalBlocks toc blocks))) ++
      evalSects toc sections)
@[inherit_doc evalPart]
def evalParts (toc : Option Toc) : List Part → List Ev
  | [] => []
  | p :: ps => evalPart toc p ++ evalParts toc ps
/-- `eval_doc_content` and `eval_book` (eval/src/eval.rs:66-115) -/
def evalDocContent (toc : Option Toc) (hasTitle : Bool) : DocContent → List Ev
  | .blocks bs => evalBlocks toc bs
  | .sections none sections => evalSects toc sections
  | .sections (some blocks) sections =>
    around (.preamble hasTitle) (evalBlocks toc blocks ++ evalTocAt inl toc [.preamble]) ++
      evalSects toc sections
  | .parts none opening parts closing => evalSects toc opening ++ evalParts toc parts ++ evalSects toc closing
  | .parts (some blocks) opening parts closing =>
    around (.preamble hasTitle) (evalBlocks toc blocks ++ evalSects toc opening ++ evalTocAt inl toc [.preamble]) ++
      evalParts toc parts ++ evalSects toc closing
/-- `visit` (eval/src/eval.rs:17-55) -/
def visit : Doc → List Ev
  | .mk attrs title toc head header footer content =>
    around (.document attrs) (evalDocinfo inl attrs.embedded head ++ around .body (evalDocinfo inl attrs.embedded header ++
      around .header (evalDocTitle inl title) ++
      evalTocAt inl toc [.auto, .left, .right] ++
      around .content (evalDocContent toc title.isSome content) ++
      around .footer [] ++ evalDocinfo inl attrs.embedded footer))
end
end

/-- The calls made for a document, with at most `n` nested anchor texts. -/
def trace (env : Env) (n : Nat) (d : Doc) : List Ev := visit (inlines env n) d

end Verif.Eval

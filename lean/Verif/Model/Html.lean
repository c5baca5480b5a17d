import Verif.Model.Eval
/-! Model of the HTML backend `dr-html-backend/src/asciidoctor_html.rs` (with
`backend/src/html/backend.rs` and `backend/src/html/htmlbuf.rs`) as a machine that
reads the calls of the evaluator.

Output is a list of tokens: opening and closing tags, void elements and text. Left
out: attributes of elements, section numbers (they are text; see Model/Numbering),
trailing spaces that are added or removed for looks, and the contents of elements
whose opening and closing are written by one call (they are balanced by
construction and carry no text of the document). Panics are those of a debug build,
where `debug_assert!` is checked. -/
namespace Verif.Html
open Verif.Ast Verif.Eval

/-- HTML elements written by dr-html-backend/src/asciidoctor_html.rs and
backend-html5s/src/html5s.rs -/
inductive Tag
  | html | head | body | title | style | div | p | span
  /-- `a`; the links of cross references are told apart by their name here -/
  | a | xrefA
  | b | i | em | strong | code | mark | sub | sup | kbd
  | pre | blockquote | cite | details | summary | ul | ol | li | dl | dt | dd
  | table | caption | colgroup | thead | tbody | tfoot | tr | th | td | audio | video | object
  | h (level : Nat)
  | hr | br | img | col | metaTag | linkTag | input
  | section | aside | figure | figcaption | nav | header | footer | samp | s | del | ins
  /-- what is left of a tag that was cut off in the middle (Model/Html5s) -/
  | broken
  deriving DecidableEq, Repr

/-- The kinds of blocks whose titles can be numbered (`caption_attr_name`,
ast/src/block.rs:134-142). -/
inductive Kind
  | table | figure | example | listing
  deriving DecidableEq, Repr

/-- Pieces of output. Captions and footnote numbers are texts too. -/
inductive Tok
  | opening (t : Tag) | closing (t : Tag) | void (t : Tag)
  /-- text of the document -/
  | text (s : Text)
  /-- text from elsewhere: attributes, or fixed -/
  | gen (s : Text)
  /-- `Table 3. ` -/
  | caption (kind : Kind) (label : Text) (num : Nat)
  /-- the number in `[3]` where a footnote is first used -/
  | footnote (num : Nat)
  /-- the number in `[3]` where it is used again -/
  | footnoteRef (num : Nat)
  /-- the number in front of the text of the footnote at the end -/
  | footnoteDef (num : Nat)
  deriving DecidableEq, Repr

/-- The fields of `AsciidoctorHtml` and `BackendState` that matter here
(dr-html-backend/src/asciidoctor_html.rs:13-26, backend/src/html/backend.rs:15-27). -/
structure Frame where
  html : List Tok := []
  /-- `alt_html` -/
  alt : List Tok := []
  /-- `doc_meta` -/
  attrs : Meta := ⟨false, false, false, false, false, .text, false, false, false, none, none, none, none⟩
  tableNum : Nat := 0
  figureNum : Nat := 0
  exampleNum : Nat := 0
  listingNum : Nat := 0
  /-- `state.xref_depth` -/
  xrefDepth : Nat := 0
  /-- `state.in_asciidoc_table_cell` -/
  inCell : Bool := false
  /-- `VisitingSimpleTermDescription ∈ state.ephemeral` -/
  simpleTerm : Bool := false
  /-- `InTableOfContents ∈ state.ephemeral` -/
  inToc : Bool := false
  /-- `InHorizontalDescList ∈ state.ephemeral` -/
  horizontal : Bool := false
  /-- `InQandaDescList ∈ state.ephemeral` -/
  qanda : Bool := false
  /-- `InGlossaryList ∈ state.ephemeral` -/
  glossary : Bool := false
  /-- `IsSourceBlock ∈ state.ephemeral` -/
  source : Bool := false
  deriving DecidableEq, Repr

/-- The backend at work, the backends that wait for it while it renders a table
cell, and the list of footnotes they all share. -/
structure State where
  cur : Frame := {}
  outer : List Frame := []
  footnotes : List (Option Text × List Tok) := []
  deriving DecidableEq, Repr

/-- `push_str` (backend/src/html/htmlbuf.rs:24-26) -/
def Frame.push (s : Frame) (ts : List Tok) : Frame := { s with html := s.html ++ ts }

/-- `push_str` on the backend at work (backend/src/html/htmlbuf.rs:24-26) -/
def State.push (s : State) (ts : List Tok) : State := { s with cur := s.cur.push ts }

/-- `push_str` (backend/src/html/htmlbuf.rs:24-26), if the condition holds -/
def State.pushIf (s : State) (c : Bool) (ts : List Tok) : State := if c then s.push ts else s

/-- `swap_buffers` (backend/src/html/htmlbuf.rs:140-147), also `stop_buffering` -/
def State.swap (s : State) : State := { s with cur := { s.cur with html := s.cur.alt, alt := s.cur.html } }

/-- `start_buffering` (backend/src/html/htmlbuf.rs:135-138) -/
def State.startBuffering (s : State) : Option State := if s.cur.alt = [] then some s.swap else none

/-- `swap_take_buffer` (backend/src/html/htmlbuf.rs:121-125): the text and the state
after it -/
def State.swapTake (s : State) : List Tok × State := (s.cur.html, { s with cur := { s.cur with html := s.cur.alt, alt := [] } })

/-- `discard_alt_buffer` (backend/src/html/htmlbuf.rs:131-133) -/
def State.discardAlt (s : State) : State := { s with cur := { s.cur with alt := [] } }

/-- `standalone` (backend/src/html/backend.rs:763-767) -/
def Frame.standalone (s : Frame) : Bool := !s.attrs.inlineDoctype && !s.inCell && !s.attrs.embedded

/-- `render_doc_title` (backend/src/html/backend.rs:820-822) -/
def Frame.rendersTitle (s : Frame) : Bool := !s.attrs.noheader && s.attrs.showTitle

/-- The caption label and number of a block, and the counters after it
(`render_block_title`, dr-html-backend/src/asciidoctor_html.rs:1571-1590;
`caption_attr_name`, ast/src/block.rs:134-142). A block with its own caption or of a kind
whose label is unset takes no number. -/
def takeCaption (s : Frame) (b : BlockInfo) : List Tok × Frame :=
  match b.caption with
  | some own => ([.gen own], s)
  | none =>
    match b.context with
    | .table => match s.attrs.tableCaption with
      | some l => ([.caption .table l (s.tableNum + 1)], { s with tableNum := s.tableNum + 1 })
      | none => ([], s)
    | .image => match s.attrs.figureCaption with
      | some l => ([.caption .figure l (s.figureNum + 1)], { s with figureNum := s.figureNum + 1 })
      | none => ([], s)
    | .example => match s.attrs.exampleCaption with
      | some l => ([.caption .example l (s.exampleNum + 1)], { s with exampleNum := s.exampleNum + 1 })
      | none => ([], s)
    | .listing => match s.attrs.listingCaption with
      | some l => ([.caption .listing l (s.listingNum + 1)], { s with listingNum := s.listingNum + 1 })
      | none => ([], s)
    | _ => ([], s)

/-- the element around a block title (dr-html-backend/src/asciidoctor_html.rs:1566-1570) -/
def titleTag (b : BlockInfo) : Tag := if b.context = .table then .caption else .div

/-- `render_block_title` (dr-html-backend/src/asciidoctor_html.rs:1565-1596) -/
def renderBlockTitle (s : Frame) (title : List Tok) (b : BlockInfo) : Frame :=
  let c := takeCaption s b
  c.2.push ([.opening (titleTag b)] ++ c.1 ++ title ++ [.closing (titleTag b)])

/-- `render_buffered_block_title` (dr-html-backend/src/asciidoctor_html.rs:1558-1563) -/
def State.bufferedTitle (s : State) (b : BlockInfo) : State :=
  if b.hasTitle then { s with cur := renderBlockTitle { s.cur with alt := [] } s.cur.alt b } else s

/-- `prev_footnote_ref_num` (backend/src/html/backend.rs:438-450), counting from `i` -/
def prevFootnote (id : Option Text) : List (Option Text × List Tok) → Nat → Option Nat
  | [], _ => none
  | (some prev, _) :: fs, i => if id = some prev then some i else prevFootnote id fs (i + 1)
  | (none, _) :: fs, i => prevFootnote id fs (i + 1)

/-- the items of `render_footnotes` (dr-html-backend/src/asciidoctor_html.rs:1610-1615),
counting from `i` -/
def footnoteItems : List (Option Text × List Tok) → Nat → List Tok
  | [], _ => []
  | (_, body) :: fs, i =>
    [.opening .div, .opening .a, .footnoteDef i, .closing .a] ++ body ++ [.closing .div] ++ footnoteItems fs (i + 1)

/-- `render_footnotes` (dr-html-backend/src/asciidoctor_html.rs:1606-1618) -/
def renderFootnotes (fs : List (Option Text × List Tok)) : List Tok :=
  [.opening .div, .void .hr] ++ footnoteItems fs 1 ++ [.closing .div]

/-- the element of a section heading (backend/src/html/backend.rs:731-761) -/
def headingTag (level : Nat) : Tag := .h (level + 1)

/-- the elements of an inline span; quotes and passthroughs have none
(dr-html-backend/src/asciidoctor_html.rs:880-947, 980-993, 1031-1039) -/
def wrapTag : Wrap → Option Tag
  | .text | .strike | .del | .ins => some .span
  | .bold => some .strong
  | .mono | .litMono => some .code
  | .italic => some .em
  | .highlight => some .mark
  | .subscript => some .sub
  | .superscript => some .sup
  | .passthrough | .doubleQuote | .singleQuote => none

/-- whether a list item is a row of a table: callout lists with icons
(dr-html-backend/src/asciidoctor_html.rs:700-736) -/
def iconItem (s : Frame) (v : Variant) : Bool := v = .callout && s.attrs.icons != .text

/-- the element of a section of a table (`enter_table_section`, backend/src/html/backend.rs:85-99) -/
def sectionTag : TableSection → Tag
  | .header => .thead
  | .body => .tbody
  | .footer => .tfoot

/-- whether a cell is a `th` (backend/src/html/table.rs:11) -/
def isTh (k : CellKind) (s : TableSection) : Bool := s = .header || k = .paragraphs .header

/-- the elements of a paragraph in a cell
(dr-html-backend/src/asciidoctor_html.rs:858-877) -/
def cellParagraphTags (style : CellStyle) (s : TableSection) : List Tag :=
  if s = .header then []
  else match style with
    | .emphasis => [.p, .em]
    | .monospace => [.p, .code]
    | .strong => [.p, .strong]
    | .default | .header => [.p]

/-- tags opened in order, tags closed in the opposite order -/
def openings (ts : List Tag) : List Tok := ts.map .opening
@[inherit_doc openings]
def closings (ts : List Tag) : List Tok := ts.reverse.map .closing

/-- The `enter_…` methods (dr-html-backend/src/asciidoctor_html.rs:38-1502). -/
def enter (c : Call) (s : State) : Option State :=
  match c with
  | .document m =>
    let s := { s with cur := { s.cur with attrs := m } }
    some (s.pushIf s.cur.standalone [.opening .html, .opening .head, .void .metaTag, .opening .title, .closing .title, .opening .style, .closing .style])
  | .body => some (s.pushIf s.cur.standalone [.closing .head, .opening .body])
  | .header => some (s.pushIf (!s.cur.attrs.embedded && !s.cur.attrs.noheader) [.opening .div])
  | .content => some (s.pushIf (!s.cur.attrs.embedded) [.opening .div])
  | .footer =>
    let s := s.pushIf (!s.footnotes.isEmpty && !s.cur.inCell) (renderFootnotes s.footnotes)
    some (s.pushIf (!s.cur.attrs.embedded && !s.cur.attrs.nofooter) [.opening .div])
  | .documentTitle => if s.cur.rendersTitle then some (s.push [.opening (.h 1)]) else s.startBuffering
  | .preamble t => some (s.pushIf t [.opening .div, .opening .div])
  | .toc pos =>
    let s := s.pushIf (pos = .preamble) [.closing .div]
    some ({ s with cur := { s.cur with inToc := true } }.push [.opening .div, .opening .div, .closing .div])
  | .tocLevel => some (s.push [.opening .ul])
  | .tocNode => some (s.push [.opening .li, .opening .a])
  | .tocContent => some s
  | .section i => if i.level ≤ 6 then some (s.push [.opening .div]) else none
  | .sectionHeading i =>
    let s := s.push [.opening (headingTag i.level)]
    let s := s.pushIf (i.hasId && s.cur.attrs.sectanchors) [.opening .a, .closing .a]
    some (s.pushIf (i.hasId && s.cur.attrs.sectlinks) [.opening .a])
  | .part => some s
  | .partTitle => some (s.push [.opening (.h 1)])
  | .partIntro t => some ((s.push [.opening .div]).pushIf t [.opening .div])
  | .partIntroContent t => some ((s.pushIf t [.closing .div]).push [.opening .div])
  | .metaTitle _ => s.startBuffering
  | .simpleContent _ | .compoundContent => some s
  | .paragraph b =>
    if s.cur.attrs.inlineDoctype then some s
    else
      let s := if s.cur.simpleTerm then s else (s.push [.opening .div]).bufferedTitle b
      some (s.push [.opening (if b.isAbstract then .blockquote else .p)])
  | .sidebar b => some ((s.push [.opening .div, .opening .div]).bufferedTitle b)
  | .openBlock b => some (((s.push [.opening .div]).bufferedTitle b).push [.opening (if b.isAbstract then .blockquote else .div)])
  | .example b =>
    if b.collapsible then
      let s := s.push [.opening .details, .opening .summary]
      let s := if b.hasTitle then s.discardAlt.push s.cur.alt else s.push [.gen "Details".toList]
      some (s.push [.closing .summary, .opening .div])
    else some (((s.push [.opening .div]).bufferedTitle b).push [.opening .div])
  | .quote b _ => some (((s.push [.opening .div]).bufferedTitle b).push [.opening .blockquote])
  | .verse b _ => some (((s.push [.opening .div]).bufferedTitle b).push [.opening .pre])
  | .listing b =>
    let s := ((s.push [.opening .div]).bufferedTitle b).push [.opening .div, .opening .pre]
    if b.isSource || s.cur.attrs.sourceLanguage then
      some ({ s with cur := { s.cur with source := true } }.push [.opening .code])
    else some s
  | .literal b => some (((s.push [.opening .div]).bufferedTitle b).push [.opening .div, .opening .pre])
  | .passthrough _ => some s
  | .image _ _ link =>
    some (s.push ([.opening .div, .opening .div] ++ (if link then [.opening .a, .void .img, .closing .a] else [.void .img]) ++ [.closing .div]))
  | .admonition b _ =>
    some ((s.push [.opening .div, .opening .table, .opening .tr, .opening .td, .closing .td, .opening .td]).bufferedTitle b)
  | .quoteAttribution b _ =>
    some (s.push [.closing (if b.context = .verse then .pre else .blockquote), .opening .div])
  | .quoteCite _ hasAttribution =>
    some (s.push (if hasAttribution then [.void .br, .opening .cite] else [.closing .blockquote, .opening .div]))
  | .quotedParagraph b => some (((s.push [.opening .div]).bufferedTitle b).push [.opening .blockquote])
  | .discreteHeading level => some (s.push [.opening (headingTag level)])
  | .unorderedList b => some (((s.push [.opening .div]).bufferedTitle b).push [.opening .ul])
  | .orderedList b => some (((s.push [.opening .div]).bufferedTitle b).push [.opening .ol])
  | .calloutList _ => some (s.push [.opening .div, .opening (if s.cur.attrs.icons = .text then .ol else .table)])
  | .descriptionList b =>
    match b.dlist with
    | .horizontal =>
      let s := { s with cur := { s.cur with horizontal := true } }
      some (((s.push [.opening .div]).bufferedTitle b).push [.opening .table])
    | .qanda =>
      let s := { s with cur := { s.cur with qanda := true } }
      some (((s.push [.opening .div]).bufferedTitle b).push [.opening .ol])
    | .glossary =>
      let s := { s with cur := { s.cur with glossary := true } }
      some (((s.push [.opening .div]).bufferedTitle b).push [.opening .dl])
    | .plain => some (((s.push [.opening .div]).bufferedTitle b).push [.opening .dl])
  | .term num =>
    if s.cur.glossary then some (s.push [.opening .dt])
    else if s.cur.horizontal then some (s.push [.opening .tr, .opening .td])
    else if s.cur.qanda then some ((s.pushIf (num = 1) [.opening .li]).push [.opening .p, .opening .em])
    else some (s.push [.opening .dt])
  | .description =>
    if s.cur.horizontal then some (s.push [.opening .td])
    else some (s.pushIf (!s.cur.qanda) [.opening .dd])
  | .descriptionText _ => some { s with cur := { s.cur with simpleTerm := true } }
  | .descriptionBlock => some s
  | .itemPrincipal v _ =>
    some (s.push (if iconItem s.cur v then [.opening .tr, .opening .td, .closing .td, .opening .td] else [.opening .li, .opening .p]))
  | .itemBlocks _ => some s
  | .table b => some (((s.push [.opening .table]).bufferedTitle b).push [.opening .colgroup, .void .col, .closing .colgroup])
  | .tableSection t => some (s.push [.opening (sectionTag t)])
  | .row => some (s.push [.opening .tr])
  | .cell k t =>
    let s := s.push [.opening (if isTh k t then .th else .td)]
    match k with
    | .asciidoc => some (s.push [.opening .div])
    | .literal => some (s.push [.opening .div, .opening .pre])
    | .paragraphs _ => some s
  | .cellParagraph style t _ => some (s.push (openings (cellParagraphTags style t)))
  | .cellDocument => some { s with cur := { inCell := true }, outer := s.cur :: s.outer }
  | .wrap k => some (match wrapTag k with
    | some t => s.push [.opening t]
    | none => s)
  | .footnote id =>
    let s := match prevFootnote id s.footnotes 1 with
      | some n => s.push [.opening .sup, .opening .a, .footnoteRef n, .closing .a, .closing .sup]
      | none => s
    s.startBuffering
  | .link inXref _ => some (s.pushIf (!inXref && !s.cur.inToc) [.opening .a])
  | .mailto _ => some (s.push [.opening .a])
  | .xref _ =>
    let s := { s with cur := { s.cur with xrefDepth := s.cur.xrefDepth + 1 } }
    some (s.pushIf (s.cur.xrefDepth = 1) [.opening .xrefA])
  | .xrefText biblio => some (s.pushIf biblio [.gen ['[']])
  | .visibleTerm | .concealedTerm | .primaryTerm | .secondaryTerm | .tertiaryTerm => some s

/-- The end of quotes and verses (`exit_quote_block`,
dr-html-backend/src/asciidoctor_html.rs:414-421). -/
def exitQuote (b : BlockInfo) (hasAttribution : Bool) : List Tok :=
  (if hasAttribution then [] else [.closing (if b.context = .verse then .pre else .blockquote)]) ++ [.closing .div]

/-- The `exit_…` methods (dr-html-backend/src/asciidoctor_html.rs:61-1497). -/
def exit (c : Call) (s : State) : Option State :=
  match c with
  | .document _ => some s
  | .body => some (s.pushIf s.cur.standalone [.closing .body, .closing .html])
  | .header => some (s.pushIf (!s.cur.attrs.embedded && !s.cur.attrs.noheader) [.closing .div])
  | .content => some (s.pushIf (!s.cur.attrs.embedded) [.closing .div])
  | .footer => some (s.pushIf (!s.cur.attrs.embedded && !s.cur.attrs.nofooter) [.closing .div])
  | .documentTitle => some (if s.cur.rendersTitle then s.push [.closing (.h 1)] else s.swapTake.2)
  | .preamble t => some (s.pushIf t [.closing .div, .closing .div])
  | .toc pos =>
    let s := s.pushIf (pos ≠ .preamble) [.closing .div]
    some { s with cur := { s.cur with inToc := false } }
  | .tocLevel => some (s.push [.closing .ul])
  | .tocNode => some (s.push [.closing .li])
  | .tocContent => some (s.push [.closing .a])
  | .section i => some (s.push (if i.level = 1 then [.closing .div, .closing .div] else [.closing .div]))
  | .sectionHeading i =>
    let s := s.pushIf (s.cur.attrs.sectlinks && i.hasId) [.closing .a]
    some ((s.push [.closing (headingTag i.level)]).pushIf (i.level = 1) [.opening .div])
  | .part => some s
  | .partTitle => some (s.push [.closing (.h 1)])
  | .partIntro _ | .partIntroContent _ => some (s.push [.closing .div])
  | .metaTitle b => some (if b.context = .passthrough then s.swapTake.2 else s.swap)
  | .simpleContent _ | .compoundContent => some s
  | .paragraph b =>
    if s.cur.attrs.inlineDoctype then some s
    else
      let s := (s.push [.closing (if b.isAbstract then .blockquote else .p)]).pushIf (!s.cur.simpleTerm) [.closing .div]
      some { s with cur := { s.cur with simpleTerm := false } }
  | .sidebar _ => some (s.push [.closing .div, .closing .div])
  | .openBlock b => some (s.push [.closing (if b.isAbstract then .blockquote else .div), .closing .div])
  | .example b => some (s.push [.closing .div, .closing (if b.collapsible then .details else .div)])
  | .quote b has | .verse b has => some (s.push (exitQuote b has))
  | .listing _ =>
    let t := { s with cur := { s.cur with source := false } }
    some ((t.pushIf s.cur.source [.closing .code]).push [.closing .pre, .closing .div, .closing .div])
  | .literal _ => some (s.push [.closing .pre, .closing .div, .closing .div])
  | .passthrough _ => some s
  | .image b title _ =>
    let s := match title with
      | some t =>
        let s := { s with cur := renderBlockTitle s.cur [.gen t] b }
        if b.hasTitle then s.discardAlt else s
      | none => s.bufferedTitle b
    some (s.push [.closing .div])
  | .admonition .. => some (s.push [.closing .td, .closing .tr, .closing .table, .closing .div])
  | .quoteAttribution _ hasCite => some (s.pushIf (!hasCite) [.closing .div])
  | .quoteCite _ hasAttribution => some (s.push (if hasAttribution then [.closing .cite, .closing .div] else [.closing .div]))
  | .quotedParagraph _ => some (s.push [.closing .div])
  | .discreteHeading level => some (s.push [.closing (headingTag level)])
  | .unorderedList _ => some (s.push [.closing .ul, .closing .div])
  | .orderedList _ => some (s.push [.closing .ol, .closing .div])
  | .calloutList _ => some (s.push [.closing (if s.cur.attrs.icons = .text then .ol else .table), .closing .div])
  | .descriptionList _ =>
    let s := { s with cur := { s.cur with glossary := false } }
    if s.cur.horizontal then some ({ s with cur := { s.cur with horizontal := false } }.push [.closing .table, .closing .div])
    else if s.cur.qanda then some ({ s with cur := { s.cur with qanda := false } }.push [.closing .ol, .closing .div])
    else some (s.push [.closing .dl, .closing .div])
  | .term _ =>
    if s.cur.horizontal then some (s.push [.closing .td])
    else if s.cur.qanda then some (s.push [.closing .em, .closing .p])
    else some (s.push [.closing .dt])
  | .description =>
    if s.cur.horizontal then some (s.push [.closing .td, .closing .tr])
    else if s.cur.qanda then some (s.push [.closing .li])
    else some (s.push [.closing .dd])
  | .descriptionText _ => some { s with cur := { s.cur with simpleTerm := false } }
  | .descriptionBlock => some s
  | .itemPrincipal v _ => some (s.push [.closing (if iconItem s.cur v then .td else .p)])
  | .itemBlocks v => some (s.push [.closing (if iconItem s.cur v then .tr else .li)])
  | .table _ => some (s.push [.closing .table])
  | .tableSection t => some (s.push [.closing (sectionTag t)])
  | .row => some (s.push [.closing .tr])
  | .cell k t =>
    if isTh k t then some (s.push [.closing .th])
    else match k with
      | .literal => some (s.push [.closing .pre, .closing .div, .closing .td])
      | .asciidoc => some (s.push [.closing .div, .closing .td])
      | .paragraphs _ => some (s.push [.closing .td])
  | .cellParagraph style t _ => some (s.push (closings (cellParagraphTags style t)))
  | .cellDocument => match s.outer with
    | [] => none
    | f :: fs => some { s with cur := { f with html := f.html ++ s.cur.html, inCell := false }, outer := fs }
  | .wrap k => some (match wrapTag k with
    | some t => s.push [.closing t]
    | none => s)
  | .footnote id =>
    match prevFootnote id s.footnotes 1 with
    | some _ => some s.swapTake.2
    | none =>
      let num := s.footnotes.length + 1
      let (body, s) := s.swapTake
      let s := s.push [.opening .sup, .opening .a, .footnote num, .closing .a, .closing .sup]
      some { s with footnotes := s.footnotes ++ [(id, body)] }
  | .link inXref _ => some (s.pushIf (!inXref && !s.cur.inToc) [.closing .a])
  | .mailto _ => some (s.push [.closing .a])
  | .xref _ =>
    match s.cur.xrefDepth with
    | 0 => none
    | d + 1 =>
      let s := { s with cur := { s.cur with xrefDepth := d } }
      some (s.pushIf (d = 0) [.closing .xrefA])
  | .xrefText biblio => some (s.pushIf biblio [.gen [']']])
  | .visibleTerm | .concealedTerm | .primaryTerm | .secondaryTerm | .tertiaryTerm => some s

/-- the leaves (dr-html-backend/src/asciidoctor_html.rs:950-1323): what is written -/
def leafToks (s : Frame) : Leaf → List Tok
  | .text t => [.text t]
  | .specialChar c => [.text [c]]
  | .newline | .curlyQuote | .whitespace | .symbol | .dashes => [.gen [' ']]
  | .image link _ => [.opening .span] ++ (if link then [.opening .a, .void .img, .closing .a] else [.void .img]) ++ [.closing .span]
  | .button => [.opening .b, .closing .b]
  | .keyboard n => if n > 1 then [.opening .span] ++ (List.replicate n [.opening .kbd, .closing .kbd]).flatten ++ [.closing .span]
      else (List.replicate n [.opening .kbd, .closing .kbd]).flatten
  | .menu n => [.opening .span] ++ (List.replicate n [.opening .b, .closing .b]).flatten ++ [.closing .span]
  | .icon link => [.opening .span] ++ (if link then [.opening .a] else []) ++
      (match s.attrs.icons with
        | .text => [.gen ['[']]
        | .image => [.void .img]
        | .font => [.opening .i, .closing .i]) ++ (if link then [.closing .a] else []) ++ [.closing .span]
  | .plugin => []
  | .anchor => if s.inToc then [] else [.opening .a, .closing .a]
  | .biblioAnchor => [.opening .a, .closing .a, .gen ['[', ']']]
  | .linebreak => [.void .br]
  | .callout => match s.attrs.icons with
    | .text => [.opening .b, .closing .b]
    | .image => [.void .img]
    | .font => [.opening .i, .closing .i, .opening .b, .closing .b]
  | .calloutTuck => if s.attrs.icons = .font then [] else [.gen ['#']]

/-- The `visit_…` methods. An inline image that links to itself uses the second
buffer for a moment (dr-html-backend/src/asciidoctor_html.rs:1187-1191) and insists
that it is empty; a menu needs two items (1307-1323). Declarations in the
body change neither `embedded` nor the doctype (core/src/document_meta.rs:162-198). -/
def visitCall (v : Visit) (s : State) : Option State :=
  match v with
  | .leaf (.image _ true) => if s.cur.alt = [] then some (s.push (leafToks s.cur (.image true true))) else none
  | .leaf (.menu n) => if 2 ≤ n then some (s.push (leafToks s.cur (.menu n))) else none
  | .leaf l => some (s.push (leafToks s.cur l))
  | .missingXref t => some (s.push [.gen t])
  | .thematicBreak => some (s.push [.void .hr])
  | .pageBreak => some (s.push [.opening .div, .closing .div])
  | .audio b => some (((s.push [.opening .div]).bufferedTitle b).push [.opening .div, .opening .audio, .closing .audio, .closing .div, .closing .div])
  | .video b => some (((s.push [.opening .div]).bufferedTitle b).push [.opening .div, .opening .video, .closing .video, .closing .div, .closing .div])
  | .declaration after => some { s with cur := { s.cur with attrs := { after with embedded := s.cur.attrs.embedded, inlineDoctype := s.cur.attrs.inlineDoctype } } }

/-- One call on the backend (the methods of `impl Backend for AsciidoctorHtml`,
dr-html-backend/src/asciidoctor_html.rs:28-1516); `none` is a panic. -/
def step (e : Ev) (s : State) : Option State :=
  match e with
  | .enter c => enter c s
  | .exit c => exit c s
  | .visit v => visitCall v s
  | .panic | .bound => none

/-- a sequence of calls, as the evaluator makes them (eval/src/eval.rs:17-55) -/
def run : List Ev → State → Option State
  | [], s => some s
  | e :: evs, s => (step e s).bind (run evs)

/-- what the backend answers when it is asked about index terms
(dr-html-backend/src/asciidoctor_html.rs:1500-1507) -/
def htmlEnv (anchors : Text → Option Anchor) : Env := ⟨anchors, true, false⟩

/-- Rendering a document (`eval`, eval/src/eval.rs:7-15): the output of a new backend
after all calls. -/
def render (anchors : Text → Option Anchor) (n : Nat) (d : Doc) : Option (List Tok) :=
  (run (trace (htmlEnv anchors) n d) {}).map (fun s => s.cur.html)

end Verif.Html

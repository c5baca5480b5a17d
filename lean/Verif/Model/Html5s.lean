import Verif.Model.Html
/-! Model of the HTML backend `backend-html5s/src/html5s.rs` as a machine that reads
the calls of the evaluator. It writes the same kinds of tokens as the other backend
(Model/Html) and keeps the same state; the fields `horizontal`, `qanda` and `glossary`
stay false, because the elements written do not depend on them.

Left out, besides what Model/Html leaves out: the details in the header of the page,
the footer text, and check boxes of list items (each is written by one call). -/
namespace Verif.Html5s
open Verif.Ast Verif.Eval Verif.Html

/-- `section` or `figure` around blocks with a title, `div` around others, as most
`enter_…_block` methods choose it (e.g. backend-html5s/src/html5s.rs:310, 356, 381, 497) -/
def box (titled : Tag) (b : BlockInfo) : Tag := if b.hasTitle then titled else .div

/-- the element around the title text (backend-html5s/src/html5s.rs:1490-1498) -/
def isCaption : Context → Bool
  | .table | .image | .example | .listing | .audio | .video => true
  | _ => false

/-- `render_block_title` (backend-html5s/src/html5s.rs:1486-1521). Which captions are
numbered is the same as in `render_block_title` of the other backend. -/
def renderBlockTitle (f : Frame) (title : List Tok) (b : BlockInfo) (h6 : Bool) : Frame :=
  let c := takeCaption f b
  let inner := if isCaption b.context then [.opening .figcaption] ++ c.1 ++ title ++ [.closing .figcaption] else c.1 ++ title
  c.2.push (if h6 then [.opening (.h 6)] ++ inner ++ [.closing (.h 6)] else inner)

/-- `render_buffered_block_title` (backend-html5s/src/html5s.rs:1479-1484) -/
def bufferedTitle (s : State) (b : BlockInfo) (h6 : Bool) : State :=
  if b.hasTitle then { s with cur := renderBlockTitle { s.cur with alt := [] } s.cur.alt b h6 } else s

/-- the items of `render_footnotes` (backend-html5s/src/html5s.rs:1527-1539), counting
from `i` -/
def footnoteItems : List (Option Text × List Tok) → Nat → List Tok
  | [], _ => []
  | (_, body) :: fs, i => [.opening .li, .footnoteDef i] ++ body ++ [.opening .a, .closing .a, .closing .li] ++ footnoteItems fs (i + 1)

/-- `render_footnotes` (backend-html5s/src/html5s.rs:1523-1541) -/
def renderFootnotes (fs : List (Option Text × List Tok)) : List Tok :=
  [.opening .section, .void .hr, .opening .ol] ++ footnoteItems fs 1 ++ [.closing .ol, .closing .section]

/-- the elements of an inline span (backend-html5s/src/html5s.rs:798-852, 889-903, 932-968) -/
def wrapTag : Wrap → Option Tag
  | .text => some .span
  | .strike => some .s
  | .del => some .del
  | .ins => some .ins
  | .bold => some .strong
  | .mono | .litMono => some .code
  | .italic => some .em
  | .highlight => some .mark
  | .subscript => some .sub
  | .superscript => some .sup
  | .passthrough | .doubleQuote | .singleQuote => none

/-- `truncate` in `enter_callout_list` (backend-html5s/src/html5s.rs:517-520): the last six
bytes of the output, which the code takes to be `</div>`. If the last piece is another
one, how much is lost depends on its length; here it is replaced by the rest of a tag. -/
def cutEnd (html : List Tok) : List Tok :=
  if html = [] then []
  else if html.getLast? = some (.closing .div) then html.dropLast
  else html.dropLast ++ [.opening .broken]

/-- the element of the text of a cell paragraph (backend-html5s/src/html5s.rs:777-782, 786-792) -/
def styleTags : CellStyle → List Tag
  | .emphasis => [.em]
  | .monospace => [.code]
  | .strong => [.strong]
  | .default | .header => []

/-- `aside` or `section` around an admonition (backend-html5s/src/html5s.rs:1260-1264) -/
def admonitionTag (b : BlockInfo) : Tag := if b.aside then .aside else .section

/-- `figure` or `div` around an image (backend-html5s/src/html5s.rs:1312-1316, 1390-1394) -/
def imageTag (b : BlockInfo) (title : Option Text) : Tag := if b.hasTitle || title.isSome then .figure else .div

/-- The `enter_…` methods (backend-html5s/src/html5s.rs:38-1455). Those in the first case
are the same in both backends, or come from the shared trait
(backend/src/html/backend.rs). -/
def enter (c : Call) (s : State) : Option State :=
  match c with
  | .document _ | .body | .content | .documentTitle | .tocNode | .tocContent | .sectionHeading _ | .partTitle | .metaTitle _ | .compoundContent
  | .passthrough _ | .discreteHeading _ | .descriptionBlock | .itemBlocks _ | .tableSection _ | .row | .cellDocument | .link .. | .mailto _ | .xref _
  | .xrefText _ | .visibleTerm | .concealedTerm | .primaryTerm | .secondaryTerm | .tertiaryTerm => Html.enter c s
  | .header => some (s.pushIf (!s.cur.attrs.embedded && !s.cur.attrs.noheader) [.opening .header])
  | .footer =>
    let s := s.pushIf (!s.footnotes.isEmpty && !s.cur.inCell) (renderFootnotes s.footnotes)
    some (s.pushIf (!s.cur.attrs.embedded && !s.cur.attrs.nofooter) [.opening .footer, .opening .div, .closing .div])
  | .preamble t => some (s.pushIf t [.opening .section])
  | .toc pos =>
    (if pos = .preamble then s.startBuffering else some s).map fun s =>
      { s with cur := { s.cur with inToc := true } }.push [.opening .nav, .opening (.h 2), .closing (.h 2)]
  | .tocLevel => some (s.push [.opening .ol])
  | .section _ => some (s.push [.opening .section])
  | .part => some (s.push [.opening .section])
  | .partIntro t => some (s.push (if t then [.opening .section, .opening (.h 6)] else [.opening .div]))
  | .partIntroContent t => some ((s.pushIf t [.closing (.h 6)]).push [.opening .div])
  | .simpleContent b => some (s.pushIf (b.context = .blockQuote) [.opening .p])
  | .paragraph b =>
    if s.cur.attrs.inlineDoctype then some s
    else
      let s := bufferedTitle (s.pushIf b.hasTitle [.opening .section]) b true
      some (s.pushIf (!s.cur.simpleTerm) [.opening (if b.isAbstract then .blockquote else .p)])
  | .sidebar b => some (bufferedTitle (s.push [.opening .aside]) b true)
  | .openBlock b =>
    if b.isAbstract then some ((bufferedTitle (s.push [.opening (box .section b)]) b true).push [.opening .blockquote])
    else some ((bufferedTitle (s.push [.opening .div]) b true).push [.opening .div])
  | .example b =>
    if b.collapsible then
      let s := s.push [.opening .details]
      let s := if b.hasTitle then s.discardAlt.push ([.opening .summary] ++ s.cur.alt ++ [.closing .summary]) else s
      some (s.push [.opening .div])
    else some ((bufferedTitle (s.push [.opening (box .figure b)]) b false).push [.opening .div])
  | .quote b _ => some ((bufferedTitle (s.push [.opening (box .section b)]) b true).push [.opening .blockquote])
  | .verse b has => some (((bufferedTitle (s.push [.opening .div]) b false).pushIf has [.opening .blockquote]).push [.opening .pre])
  | .listing b =>
    let s := (bufferedTitle (s.push [.opening (box .figure b)]) b false).push [.opening .pre]
    if b.isSource || s.cur.attrs.sourceLanguage then
      some ({ s with cur := { s.cur with source := true } }.push [.opening .code])
    else some s
  | .literal b => some ((bufferedTitle (s.push [.opening (box .section b)]) b true).push [.opening .pre])
  | .image b title link =>
    some (s.push ([.opening (imageTag b title)] ++ (if link then [.opening .a, .void .img, .closing .a] else [.void .img])))
  | .admonition b compound =>
    let s := s.push [.opening (admonitionTag b), .opening (.h 6), .opening .span, .closing .span]
    let s := (bufferedTitle s b false).push [.closing (.h 6)]
    some (bufferedTitle (s.pushIf (!compound) [.opening .p]) b false)
  | .quoteAttribution b _ =>
    some ((s.pushIf (b.context = .quotedParagraph) [.closing .p]).push [.opening .footer, .opening .cite])
  | .quoteCite _ hasAttribution => some (s.push (if hasAttribution then [.gen [',', ' ']] else [.opening .footer, .opening .cite]))
  | .quotedParagraph b => some ((bufferedTitle (s.push [.opening .div]) b false).push [.opening .blockquote, .opening .p])
  | .unorderedList b => some ((bufferedTitle (s.pushIf (b.depth = 1) [.opening (box .section b)]) b true).push [.opening .ul])
  | .orderedList b => some ((bufferedTitle (s.pushIf (b.depth = 1) [.opening (box .section b)]) b true).push [.opening .ol])
  | .calloutList _ => some ({ s with cur := { s.cur with html := cutEnd s.cur.html } }.push [.opening .ol])
  | .descriptionList b => some ((bufferedTitle (s.pushIf (b.depth = 1) [.opening (box .section b)]) b true).push [.opening .dl])
  | .term _ => some (s.push [.opening .dt])
  | .description => some (s.push [.opening .dd])
  | .descriptionText bare => some (if bare then { s with cur := { s.cur with simpleTerm := true } } else s)
  | .itemPrincipal _ para => some ((s.push [.opening .li]).pushIf para [.opening .p])
  | .table b =>
    some ((bufferedTitle (s.push [.opening (box .figure b)]) b false).push [.opening .table, .opening .colgroup, .void .col, .closing .colgroup])
  | .cell k t =>
    let s := s.push [.opening (if isTh k t then .th else .td)]
    some (s.pushIf (k = .literal) [.opening .div, .opening .pre])
  | .cellParagraph style _ multi => some ((s.pushIf multi [.opening .p]).push (openings (styleTags style)))
  | .wrap k => some (match wrapTag k with
    | some t => s.push [.opening t]
    | none => s)
  | .footnote id =>
    let s := match prevFootnote id s.footnotes 1 with
      | some n => s.push [.opening .a, .footnoteRef n, .closing .a]
      | none => s
    s.startBuffering

/-- The `exit_…` methods (backend-html5s/src/html5s.rs:54-1463). -/
def exit (c : Call) (s : State) : Option State :=
  match c with
  | .document _ | .body | .content | .documentTitle | .tocNode | .tocContent | .partTitle | .metaTitle _ | .compoundContent
  | .passthrough _ | .discreteHeading _ | .descriptionText _ | .descriptionBlock | .tableSection _ | .row | .cellDocument | .link .. | .mailto _ | .xref _
  | .xrefText _ | .visibleTerm | .concealedTerm | .primaryTerm | .secondaryTerm | .tertiaryTerm => Html.exit c s
  | .header => some (s.pushIf (!s.cur.attrs.embedded && !s.cur.attrs.noheader) [.closing .header])
  | .footer => some (s.pushIf (!s.cur.attrs.embedded && !s.cur.attrs.nofooter) [.closing .footer])
  | .preamble t =>
    if s.cur.alt = [] then some (s.pushIf t [.closing .section])
    else
      let (buffered, s) := s.swapTake
      some ((s.pushIf t [.closing .section]).push buffered)
  | .toc _ =>
    let s := s.push [.closing .nav]
    some { s with cur := { s.cur with inToc := false } }
  | .tocLevel => some (s.push [.closing .ol])
  | .section _ | .part => some (s.push [.closing .section])
  | .sectionHeading i =>
    let s := s.pushIf (s.cur.attrs.sectlinks && i.hasId) [.closing .a]
    some (s.push [.closing (headingTag i.level)])
  | .partIntro t => some (s.push [.closing (if t then .section else .div)])
  | .partIntroContent _ => some (s.push [.closing .div])
  | .simpleContent b =>
    some (s.push (if b.context = .blockQuote then [.closing .p] else if b.context = .verse then [.closing .pre] else []))
  | .paragraph b =>
    if s.cur.attrs.inlineDoctype then some s
    else
      let s := (s.pushIf (!s.cur.simpleTerm) [.closing (if b.isAbstract then .blockquote else .p)]).pushIf b.hasTitle [.closing .section]
      some { s with cur := { s.cur with simpleTerm := false } }
  | .sidebar _ => some (s.push [.closing .aside])
  | .openBlock b => some (s.push (if b.isAbstract then [.closing .blockquote, .closing (box .section b)] else [.closing .div, .closing .div]))
  | .example b => some (s.push [.closing .div, .closing (if b.collapsible then .details else box .figure b)])
  | .quote b _ => some (s.push [.closing .blockquote, .closing (box .section b)])
  | .verse b has => some ((s.pushIf has [.closing .blockquote]).push [.closing (box .section b)])
  | .listing b =>
    let t := { s with cur := { s.cur with source := false } }
    some ((t.pushIf s.cur.source [.closing .code]).push [.closing .pre, .closing (box .figure b)])
  | .literal b => some (s.push [.closing .pre, .closing (box .section b)])
  | .image b title _ =>
    let s := match title with
      | some t =>
        let s := { s with cur := renderBlockTitle s.cur [.gen t] b false }
        if b.hasTitle then s.discardAlt else s
      | none => bufferedTitle s b false
    some (s.push [.closing (imageTag b title)])
  | .admonition b compound => some ((s.pushIf (!compound) [.closing .p]).push [.closing (admonitionTag b)])
  | .quoteAttribution _ hasCite => some (s.pushIf (!hasCite) [.closing .cite, .closing .footer])
  | .quoteCite .. => some (s.push [.closing .cite, .closing .footer])
  | .quotedParagraph _ => some (s.push [.closing .blockquote, .closing .div])
  | .unorderedList b => some ((s.push [.closing .ul]).pushIf (b.depth = 1) [.closing (box .section b)])
  | .orderedList b => some ((s.push [.closing .ol]).pushIf (b.depth = 1) [.closing (box .section b)])
  | .calloutList _ => some (s.push [.closing .ol, .closing .div])
  | .descriptionList b => some ((s.push [.closing .dl]).pushIf (b.depth = 1) [.closing (box .section b)])
  | .term _ => some (s.push [.closing .dt])
  | .description => some (s.push [.closing .dd])
  | .itemPrincipal _ para => some (s.pushIf para [.closing .p])
  | .itemBlocks _ => some (s.push [.closing .li])
  | .table b => some (s.push [.closing .table, .closing (box .figure b)])
  | .cell k t =>
    if isTh k t then some (s.push [.closing .th])
    else some (s.push (if k = .literal then [.closing .pre, .closing .div, .closing .td] else [.closing .td]))
  | .cellParagraph style t multi =>
    let s := if t = .header then s.push [.gen [' ']] else s.push (closings (styleTags style))
    some (s.pushIf multi [.closing .p])
  | .wrap k => some (match wrapTag k with
    | some t => s.push [.closing t]
    | none => s)
  | .footnote id =>
    match prevFootnote id s.footnotes 1 with
    | some _ => some s.swapTake.2
    | none =>
      let num := s.footnotes.length + 1
      let (body, s) := s.swapTake
      let s := s.push [.opening .a, .footnote num, .closing .a]
      some { s with footnotes := s.footnotes ++ [(id, body)] }

/-- the leaves (backend-html5s/src/html5s.rs:854-1251): what is written -/
def leafToks (s : Frame) : Leaf → List Tok
  | .text t => [.text t]
  | .specialChar c => [.text [c]]
  | .newline | .curlyQuote | .whitespace | .symbol | .dashes | .calloutTuck => [.gen [' ']]
  | .image link _ => if link then [.opening .a, .void .img, .closing .a] else [.void .img]
  | .button => [.opening .kbd, .opening .samp, .closing .samp, .closing .kbd]
  | .keyboard n => if n > 1 then [.opening .kbd] ++ (List.replicate n [.opening .kbd, .closing .kbd]).flatten ++ [.closing .kbd]
      else (List.replicate n [.opening .kbd, .closing .kbd]).flatten
  | .menu n => [.opening .kbd] ++ ([.opening .kbd, .opening .samp, .closing .samp, .closing .kbd] ++
      (List.replicate (n - 1) [.opening .span, .closing .span, .opening .kbd, .opening .samp, .closing .samp, .closing .kbd]).flatten) ++ [.closing .kbd]
  | .icon link => (if link then [.opening .a] else []) ++
      (match s.attrs.icons with
        | .text => [.opening .b, .closing .b]
        | .image => [.void .img]
        | .font => [.opening .i, .closing .i]) ++ (if link then [.closing .a] else [])
  | .plugin => []
  | .anchor => if s.inToc then [] else [.opening .a, .closing .a]
  | .biblioAnchor => [.opening .a, .closing .a, .gen ['[', ']']]
  | .linebreak => [.void .br]
  | .callout => [.opening .b, .closing .b]

/-- The `visit_…` methods (backend-html5s/src/html5s.rs:854-1412). An inline image that
links to itself needs the second buffer (1101-1105); a menu needs an item (1241-1251). The
title of sound and video comes last (1157-1171). -/
def visitCall (v : Visit) (s : State) : Option State :=
  match v with
  | .leaf (.image _ true) => if s.cur.alt = [] then some (s.push (leafToks s.cur (.image true true))) else none
  | .leaf (.menu n) => if 1 ≤ n then some (s.push (leafToks s.cur (.menu n))) else none
  | .leaf l => some (s.push (leafToks s.cur l))
  | .missingXref t => some (s.push [.gen t])
  | .thematicBreak => some (s.push [.void .hr])
  | .pageBreak => some (s.push [.opening .div, .closing .div])
  | .audio b => some ((bufferedTitle (s.push [.opening (box .figure b), .opening .audio, .closing .audio]) b false).push [.closing (box .figure b)])
  | .video b => some ((bufferedTitle (s.push [.opening (box .figure b), .opening .video, .closing .video]) b false).push [.closing (box .figure b)])
  | .declaration after => some { s with cur := { s.cur with attrs := { after with embedded := s.cur.attrs.embedded, inlineDoctype := s.cur.attrs.inlineDoctype } } }

/-- One call on the backend (`impl Backend for Html5s`,
backend-html5s/src/html5s.rs:29-1472); `none` is a panic. -/
def step (e : Ev) (s : State) : Option State :=
  match e with
  | .enter c => enter c s
  | .exit c => exit c s
  | .visit v => visitCall v s
  | .panic | .bound => none

/-- a sequence of calls, as the evaluator makes them (eval/src/eval.rs:17-55) -/
def run : List Ev → State → Option State
  | [], s => some s
  | e :: evs, s => (step e s).bind (run evs)

/-- Rendering a document (`eval`, eval/src/eval.rs:7-15): the output of a new backend
after all calls. Index terms are entered as by the other backend
(backend-html5s/src/html5s.rs:862-868). -/
def render (anchors : Text → Option Anchor) (n : Nat) (d : Doc) : Option (List Tok) :=
  (run (trace (htmlEnv anchors) n d) {}).map (fun s => s.cur.html)

end Verif.Html5s

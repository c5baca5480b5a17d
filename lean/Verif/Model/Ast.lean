/-! Model of the document tree (`ast/src`), as far as the evaluator
(`eval/src/eval.rs`) and the HTML backend look at it. Texts are lists of
characters. Attributes that change neither the calls made nor the elements
written are left out. -/
namespace Verif.Ast

abbrev Text := List Char

/-- `SpanKind` (ast/src/inline.rs:44-53), and the two other inline nodes that
only wrap their children: `InlinePassthru` and `Quote` (ast/src/inline.rs:17-40).
Text spans are told apart by their first role: `line-through` or `strike`, `del`,
`ins`, any other or none (backend-html5s/src/html5s.rs:932-968). -/
inductive Wrap
  | text | strike | del | ins | bold | mono | italic | highlight | subscript | superscript | litMono
  | passthrough | doubleQuote | singleQuote
  deriving DecidableEq, Repr

/-- Inline nodes that make the evaluator do one `visit_…` call
(eval/src/eval.rs:455-603): their name and what matters of their data. -/
inductive Leaf
  | text (s : Text) | specialChar (c : Char) | newline | curlyQuote | whitespace
  /-- `selfLink`: the image has `link=self` and is not embedded -/
  | image (link : Bool) (selfLink : Bool)
  | button | keyboard (keys : Nat)
  /-- the number of items of `MacroNode::Menu` -/
  | menu (items : Nat)
  | icon (link : Bool) | plugin | anchor | biblioAnchor | linebreak | callout | calloutTuck | symbol | dashes
  deriving DecidableEq, Repr

/-- `InlineNode` (ast/src/inline.rs:4-40, ast/src/macro.rs). The target of an
xref is the id it refers to (`utils::xref::get_id`, backend/src/utils.rs:104-106). -/
inductive Inline
  | leaf (l : Leaf)
  /-- `LineComment` and `Discarded` -/
  | skipped
  | wrap (k : Wrap) (children : List Inline)
  | footnote (id : Option Text) (text : Option (List Inline))
  | link (text : Option (List Inline))
  | mailto (text : Option (List Inline))
  | xref (target : Text) (linktext : Option (List Inline))
  | visibleTerm (term : List Inline)
  | concealedTerm (primary : List Inline) (secondary tertiary : Option (List Inline))

/-- `Anchor` (ast/src/node.rs:5-13). -/
structure Anchor where
  reftext : Option (List Inline)
  title : List Inline
  isBiblio : Bool

/-- `BlockContext` (ast/src/block.rs:69-102); the five admonitions are one here. -/
inductive Context
  | admonition | audio | blockQuote | calloutList | comment | descriptionList | discreteHeading
  | documentAttributeDecl | example | image | listItem | listing | literal | orderedList | openBlock
  | pageBreak | paragraph | passthrough | quotedParagraph | sectionBlock | sidebar | table | tableCell
  | thematicBreak | tableOfContents | unorderedList | verse | video
  deriving DecidableEq, Repr

/-- `ListVariant` (ast/src/list.rs:54-60). -/
inductive Variant
  | ordered | unordered | description | callout
  deriving DecidableEq, Repr

/-- How a description list is laid out: the test of `enter_description_list`
(dr-html-backend/src/asciidoctor_html.rs:557-602) on the attributes. -/
inductive DlistStyle
  | horizontal | qanda | glossary | plain
  deriving DecidableEq, Repr

/-- `TocPosition` (ast/src/toc.rs:19-26). -/
inductive TocPosition
  | left | right | preamble | byMacro | auto
  deriving DecidableEq, Repr

/-- `TableSection` (ast/src/table.rs:171-175). -/
inductive TableSection
  | header | body | footer
  deriving DecidableEq, Repr

/-- `IconMode` (core/src/types.rs:26-31). -/
inductive IconMode
  | text | image | font
  deriving DecidableEq, Repr

/-- The kinds of cell contents made of paragraphs (`CellContent`,
ast/src/table.rs:20-30). -/
inductive CellStyle
  | default | emphasis | header | monospace | strong
  deriving DecidableEq, Repr

/-- The document attributes the HTML backend looks at when it decides which
elements to write (`doc_meta`). -/
structure Meta where
  embedded : Bool
  inlineDoctype : Bool
  noheader : Bool
  nofooter : Bool
  /-- `show_doc_title` -/
  showTitle : Bool
  icons : IconMode
  sectanchors : Bool
  sectlinks : Bool
  /-- `source-language` is set -/
  sourceLanguage : Bool
  tableCaption : Option Text
  figureCaption : Option Text
  exampleCaption : Option Text
  listingCaption : Option Text
  deriving DecidableEq, Repr

/-- What the backend sees of a block besides its content: context, whether it
has a title, and attributes. -/
structure BlockInfo where
  context : Context
  hasTitle : Bool
  /-- the `caption` attribute of the block -/
  caption : Option Text
  /-- `%collapsible` -/
  collapsible : Bool
  /-- `[abstract]` -/
  isAbstract : Bool
  dlist : DlistStyle
  /-- `is_source` (`[source]`) -/
  isSource : Bool
  /-- lists: how deep they are nested, from 1 (`BlockContent::List`, ast/src/block.rs:34-38) -/
  depth : Nat := 1
  /-- admonitions: a note or a tip -/
  aside : Bool := false
  deriving DecidableEq, Repr

/-- What the backend sees of a section. -/
structure SectInfo where
  level : Nat
  hasId : Bool
  deriving DecidableEq, Repr

/-- `TocNode` (ast/src/toc.rs:10-17). -/
inductive TocNode
  | mk (level : Nat) (title : List Inline) (children : List TocNode)

/-- `TableOfContents` (ast/src/toc.rs:3-8). -/
structure Toc where
  position : TocPosition
  nodes : List TocNode

mutual
/-- `Block` (ast/src/block.rs:3-9) with its title, and its second and third
positional attributes (attribution and citation of quotes and verses). The field
`hasTitle` of the information is set by `Block.view`. -/
inductive Block
  | mk (info : BlockInfo) (title attribution cite : Option (List Inline)) (content : Content)
/-- `BlockContent` and `EmptyMetadata` (ast/src/block.rs:21-60). -/
inductive Content
  | simple (children : List Inline)
  | compound (blocks : List Block)
  | quoted (quote attribution : List Inline) (cite : Option (List Inline))
  | list (variant : Variant) (items : List Item)
  | section (s : Sect)
  | table (header : Option (List Cell)) (rows : List (List Cell)) (footer : Option (List Cell))
  /-- `title`: the `title` attribute of the image macro; `link`: it is a link -/
  | image (title : Option Text) (link : Bool)
  | audioVideo
  | heading (level : Nat) (content : List Inline)
  /-- `DocumentAttribute`: the attributes after the declaration -/
  | declaration (after : Meta)
  | empty
/-- `ListItem` (ast/src/list.rs:5-24): description list items and others. -/
inductive Item
  | plain (principle : List Inline) (blocks : List Block)
  | desc (principle : List Inline) (extraTerms : List (List Inline)) (description : Option Block) (blocks : List Block)
/-- `Section` (ast/src/doc_content.rs:38-46). -/
inductive Sect
  | mk (info : SectInfo) (heading : List Inline) (blocks : List Block)
/-- `Cell` with its `CellContent` (ast/src/table.rs:20-30). -/
inductive Cell
  | paragraphs (style : CellStyle) (paragraphs : List (List Inline))
  | literal (nodes : List Inline)
  | asciidoc (d : Doc)
/-- `Part` and `PartTitle` (ast/src/doc_content.rs:24-36). -/
inductive Part
  | mk (title : List Inline) (blockTitle : Option (List Inline)) (intro : Option (List Block)) (sections : List Sect)
/-- `DocContent` (ast/src/doc_content.rs:3-22). -/
inductive DocContent
  | blocks (bs : List Block)
  | sections (preamble : Option (List Block)) (sections : List Sect)
  | parts (preamble : Option (List Block)) (opening : List Sect) (parts : List Part) (closing : List Sect)
/-- `Document` (ast/src/document.rs:5-20), without the anchors, which are shared
by all documents of a run. -/
inductive Doc
  | mk (attrs : Meta) (title : Option (List Inline)) (toc : Option Toc) (head header footer : Option (List Inline)) (content : DocContent)
end

end Verif.Ast

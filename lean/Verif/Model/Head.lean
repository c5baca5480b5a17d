import Verif.Model.Images
import Verif.Model.Inlines
/-!
Model of the head of a page: `backend/src/html/backend.rs:41-83`, `763-818`, `dr-html-backend/src/asciidoctor_html.rs:1620-1636` and
the stylesheet that the command line program reads, `cli/src/css.rs`.
-/
namespace Verif.Head
open Verif.OpenTag Verif.Images Verif.IncludeProcess Verif.Path

/-- `backend.rs:41-47` — `open_doc_head`, without `<!DOCTYPE html>` and `<head>` -/
def htmlTag (m : DocumentMeta) : Str :=
  "<html".toList ++ (if m.isTrue "nolang" then [] else " lang=\"".toList ++ (str m "lang").getD "en".toList ++ ['"']) ++ ['>']

/-- a `meta` element with a name -/
def metaTag (name content : Str) : Str := "<meta name=\"".toList ++ name ++ "\" content=\"".toList ++ content ++ "\">".toList

/-- a `meta` element for an attribute, if it is set -/
def metaAttr (m : DocumentMeta) (name : Str) (attr : String) : List Str := ((str m attr).map (metaTag name)).toList

/-- `backend.rs:49-69` — `meta_tags` -/
def metaTags (m : DocumentMeta) : List Str :=
  ["<meta charset=\"".toList ++ (str m "encoding").getD "UTF-8".toList ++ "\">".toList,
    "<meta http-equiv=\"X-UA-Compatible\" content=\"IE=edge\">".toList,
    "<meta name=\"viewport\" content=\"width=device-width, initial-scale=1.0\">".toList] ++
  (if m.isTrue "reproducible" then [] else ["<meta name=\"generator\" content=\"Asciidork\">".toList]) ++
  metaAttr m "application-name".toList "app-name" ++ metaAttr m "description".toList "description" ++
  metaAttr m "keywords".toList "keywords" ++ metaAttr m "copyright".toList "copyright"

/-- `std::path::Path::extension`: what follows the last full stop of the last part, if something is before it -/
def extension (s : Str) : Option Str :=
  let name := (s.reverse.takeWhile (· ≠ '/')).reverse
  let e := (name.reverse.takeWhile (· ≠ '.')).reverse
  if e.length + 1 < name.length ∧ name ≠ "..".toList then some e else none

/-- `backend.rs:806-818` — `render_favicon`. Simplification: the path has no `/` or `/.` at its end. -/
def favicon (m : DocumentMeta) : List Str :=
  match m.get "favicon" with
  | some (.string path) =>
    ["<link rel=\"icon\" type=\"image/".toList ++ (extension path.toList).getD "ico".toList ++ "\" href=\"".toList ++ path.toList ++ "\">".toList]
  | some (.bool true) => ["<link rel=\"icon\" type=\"image/x-icon\" href=\"favicon.ico\">".toList]
  | _ => []

/-- the names with `, ` between them -/
def authorNames : List Author → Str
  | [] => []
  | [a] => a.fullname.toList
  | a :: as => a.fullname.toList ++ ", ".toList ++ authorNames as

/-- `backend.rs:791-804` — `render_meta_authors` -/
def metaAuthors (as : List Author) : List Str := if as = [] then [] else [metaTag "author".toList (authorNames as)]

/-- `ast/src/inline_nodes.rs:43-52` -/
def symText : Inlines.Sym → Str
  | .copyright => "(C)".toList
  | .trademark => "(TM)".toList
  | .registered => "(R)".toList
  | .emDash => "—".toList
  | .tripleDash => "---".toList
  | .ellipsis => "...".toList
  | .singleRightArrow => "->".toList
  | .doubleRightArrow => "=>".toList
  | .singleLeftArrow => "<-".toList
  | .doubleLeftArrow => "<=".toList

/-- `ast/src/inline_nodes.rs:13-57` — `plain_text`, of the nodes without nodes in them. Nodes of macros have no text. -/
def leafText : Inlines.Leaf → Str
  | .text s => s
  | .newline => " ".toList
  | .special .ampersand => "&".toList
  | .special .lessThan => "<".toList
  | .special .greaterThan => ">".toList
  | .symbol k => symText k
  | .dashes 2 _ => " — ".toList
  | .dashes _ _ => " --- ".toList
  | .curly .rightDouble => "”".toList
  | .curly .leftDouble => "“".toList
  | .curly .leftSingle => "‘".toList
  | .curly .rightSingle => "’".toList
  | .curly .apostrophe => "'".toList
  | .spaces _ => " ".toList
  | .passthru s => s
  | _ => []

/-- `backend.rs:769-781` — `render_title`; `title` is the title of the document -/
def titleElement (m : DocumentMeta) (title : Option (List Inlines.Leaf)) : Str :=
  "<title>".toList ++ (match str m "title" with
    | some t => t
    | none => match title with
      | some ls => ls.flatMap leafText
      | none => "Untitled".toList) ++ "</title>".toList

/-- `ast/src/toc.rs` — where the table of contents is -/
inductive TocPos where
  | auto | left | right | preamble | macro
deriving DecidableEq

/-- `parse_doc_header.rs:87-107` — `prepare_toc`: whether there is a table of contents, and where -/
def tocPos (m : DocumentMeta) : Option TocPos :=
  match m.get "toc" with
  | some (.bool true) => some .auto
  | some (.string s) => [("left", TocPos.left), ("right", .right), ("preamble", .preamble), ("macro", .macro), ("auto", .auto)].lookup s
  | _ => none

/-- `backend.rs:71-83` — `open_body` -/
def bodyTag (m : DocumentMeta) (toc : Option TocPos) : Str :=
  "<body".toList ++ (match str m "css-signature" with | some i => " id=\"".toList ++ i ++ ['"'] | none => []) ++
    " class=\"".toList ++ m.doctype.toStr.toList ++
    (match toc with | some .left => " toc2 toc-left".toList | some .right => " toc2 toc-right".toList | _ => []) ++ "\">".toList

/-! ### stylesheets -/

/-- `backend.rs:783-789` — `render_embedded_stylesheet` -/
def styleElement (m : DocumentMeta) (default : Str) : Str :=
  if str m "stylesheet" = some [] then "<style>".toList ++ default ++ "</style>".toList
  else match str m "_asciidork_resolved_custom_css" with
    | some css => "<style>".toList ++ css ++ "</style>".toList
    | none => []

/-- `asciidoctor_html.rs:1620-1634`: the link to the fonts of the default stylesheet -/
def fontLink (m : DocumentMeta) : Str :=
  if str m "stylesheet" = some [] then
    "<link rel=\"stylesheet\" href=\"https://fonts.googleapis.com/css?family=".toList ++
      (match (str m "webfonts").filter (· ≠ []) with
        | some f => f
        | none => "Open+Sans:300,300italic,400,400italic,600,600italic%7CNoto+Serif:400,400italic,700,700italic%7CDroid+Sans+Mono:400,700".toList) ++
      "\" />".toList
  else []

/-- `backend.rs:763-767` — `standalone`; `cell` is whether this is the document of a cell -/
def standalone (m : DocumentMeta) (cell : Bool) : Bool := m.doctype ≠ .inline && !cell && !m.embedded

/-- `asciidoctor_html.rs:38-60` — `enter_document`: what is written before the body -/
def pageHead (m : DocumentMeta) (title : Option (List Inlines.Leaf)) (css : Str) (cell : Bool) : Str :=
  if standalone m cell then
    "<!DOCTYPE html>".toList ++ htmlTag m ++ "<head>".toList ++ (metaTags m).flatten ++ (favicon m).flatten ++ (metaAuthors m.authors).flatten ++
      titleElement m title ++ fontLink m ++ styleElement m css
  else []

/-- what the command line program sees of the file system: its working directory, as text and as a place, `dunce::canonicalize`, and the
texts of files (`fs::read_to_string`) -/
structure Disk where
  cwd : Str
  cwdPlace : List Name
  canon : Str → Option (List Name)
  content : List Name → Option Str

/-- what comes of it -/
inductive CssResult where
  /-- nothing was asked for -/
  | unasked
  | notFound | notPermitted | unreadable
  /-- the file that was read, and what the document is then -/
  | done (place : List Name) (m : DocumentMeta)
  | panic

/-- the text of an attribute of the header, `css.rs:5-6` -/
def headerStr (m : DocumentMeta) (k : String) : Option Str := ((m.headerAttrs k).bind AttrValue.str).map String.toList

/-- `css.rs:13-17`: the path of the stylesheet -/
def cssPath (d : Disk) (m : DocumentMeta) (file : Str) : Str :=
  (((Path.new d.cwd).push (Path.new ((headerStr m "stylesdir").getD ".".toList))).push (Path.new file)).display

/-- `cli/src/css.rs:4-52` — `resolve` -/
def resolveCss (d : Disk) (m : DocumentMeta) : CssResult :=
  match headerStr m "stylesheet" with
  | none => .unasked
  | some file =>
    if file = [] then .unasked
    else match d.canon (cssPath d m file) with
      | none => .notFound
      | some place =>
        if m.safeMode ≠ .modeUnsafe ∧ ¬ d.cwdPlace <+: place then .notPermitted
        else match d.content place with
          | none => .unreadable
          | some css => match m.insertHeaderAttr "_asciidork_resolved_custom_css" (.string (String.ofList css)) with
            | (m, none) => .done place m
            | (_, some _) => .panic

/-- `cli/src/main.rs:84-90`: the document that is converted; problems are only reported if the run is not strict -/
def CssResult.meta (m : DocumentMeta) : CssResult → DocumentMeta
  | .done _ m => m
  | _ => m

end Verif.Head

import Verif.Model.Regex
import Verif.Model.Meta
import Verif.Model.OpenTag
import Verif.Model.IncludeProcess
import Verif.Model.Base64
/-!
Model of images and icons: `parser/src/tasks/parse_image_block.rs` (which kind of image it is, which file is read for it),
`render_image` and the paths of icons in `backend/src/html/backend.rs`, and the image and admonition elements of
`dr-html-backend/src/asciidoctor_html.rs` and `backend-html5s/src/html5s.rs`.

Simplifications: the text of an image file is what `normalize_encoding` and `from_utf8_lossy` make of its bytes
(`World.decode`); errors are reported, but do not end the parsing (it is not strict); alternative texts with markup are left
out; a `$` in the width or height of an inlined image, which the regular expression library would expand, is not treated.
-/
namespace Verif.Images
open Verif.OpenTag Verif.Escape Verif.IncludeProcess Verif.Path

/-- the resolver of included files, as far as images need it (`include_resolver.rs:39-52`) -/
structure World where
  /-- whether there is one (`parse_image_block.rs:212-218`) -/
  resolver : Bool := true
  /-- its base directory -/
  baseDir : Option Str
  read : Target → Resolved
  /-- the text of a file (`normalize_includes.rs:71-115`); `none` is its error -/
  decode : Bytes → Option Str

/-- `core/src/attrs.rs:55-57` — `str` -/
def str (m : DocumentMeta) (k : String) : Option Str := ((m.get k).bind AttrValue.str).map String.toList

/-- `parse_image_block.rs:282-287` — `IncludeKind` -/
inductive Kind where
  | inlineSvg | dataUri | admonitionIcon
deriving DecidableEq

/-- `parse_image_block.rs:298-304` — `image_dir_attr` -/
def Kind.dir : Kind → String
  | .inlineSvg => "imagesdir"
  | .dataUri => "imagesdir"
  | .admonitionIcon => "iconsdir"

/-- `ast/src/block.rs:63-67` — `ImageKind` -/
inductive ImageKind where
  | standard
  | dataUri (data : Option Str)
  | inlineSvg (text : Option Str)
deriving DecidableEq

/-- what was asked for, and what came -/
structure Got where
  asked : Option Target
  bytes : Option Bytes

/-- the file, if it could be read (`parse_image_block.rs:260-279`) -/
def contents : Resolved → Option Bytes
  | .ok bytes => some bytes
  | _ => none

/-- `parse_image_block.rs:204-279` — `get_image_bytes` -/
def imageBytes (w : World) (m : DocumentMeta) (target : Str) (isUri : Bool) (kind : Kind) : Got :=
  if w.resolver then
    match imageRequest (m.isTrue "allow-uri-read") w.baseDir (str m kind.dir) target isUri with
    | none => ⟨none, none⟩
    | some t => ⟨some t, contents (w.read t)⟩
  else ⟨none, none⟩

/-- behind `.` in the regular expression `SVG_TARGET`, `(?i)\.svg(\[|\?|$)` (`regx.rs:54`); `ſ` is an `s` for it -/
def svgAt : Str → Bool
  | s :: v :: g :: rest =>
    (s = 's' || s = 'S' || s = 'ſ') && (v = 'v' || v = 'V') && (g = 'g' || g = 'G') &&
      (match rest with | [] => true | c :: _ => c = '[' || c = '?')
  | _ => false

/-- `SVG_TARGET` (`regx.rs:54`) -/
def svgTarget : Str → Bool
  | [] => false
  | c :: cs => (c = '.' && svgAt cs) || svgTarget cs

/-- `parse_image_block.rs:170-188` — `should_resolve_as_inline_svg` -/
def inlined (m : DocumentMeta) (target : Str) (a : Attrs) (block : Option Attrs) : Bool :=
  if !a.options.contains "inline" && (block.all fun b => !b.options.contains "inline") ||
      ((a.named "format").any fun f => f ≠ "svg".toList) then false
  else if SafeMode.modeSecure.rank ≤ m.safeMode.rank then false
  else if (a.named "format").isNone && !svgTarget target then false
  else true

/-- `parse_image_block.rs:190-197` — `prepended_target_is_uri` -/
def dirIsUri (m : DocumentMeta) (kind : Kind) : Bool := ((str m kind.dir).map uriSniff).getD false

/-- `parse_image_block.rs:199-202` — `is_disallowed_abs_uri` -/
def disallowed (m : DocumentMeta) (isUri : Bool) (kind : Kind) : Bool :=
  (isUri || dirIsUri m kind) && !m.isTrue "allow-uri-read"

/-- what follows the last `<svg`, with it: `SVG_PREAMBLE`, `(?s)^(.*)<svg`, whose star is greedy (`regx.rs:59`,
`parse_image_block.rs:134-136`) -/
def lastSvg : Str → Option Str
  | [] => none
  | c :: cs =>
    match lastSvg cs with
    | some s => some s
    | none => if "<svg".toList.isPrefixOf (c :: cs) then some (c :: cs) else none

/-- `u8::is_ascii_whitespace` -/
def asciiSpace (c : Char) : Bool := c = ' ' || c = '\t' || c = '\n' || c = '\r' || c = '\x0c'

/-- `trim_ascii` -/
def trimAscii (s : Str) : Str := ((s.dropWhile asciiSpace).reverse.dropWhile asciiSpace).reverse

/-- what is left behind a quoted text -/
def quoted : Str → Option Str
  | q :: s => if q = '"' || q = '\'' then
      match s.dropWhile (· ≠ q) with | [] => none | _ :: rest => some rest
    else none
  | [] => none

/-- what is left behind a match of `SVG_STRIP_ATTRS`, `(?s)\s(?:width|height|style)=("([^"]*)"|'([^']*)')`, at the start
(`regx.rs:61-62`) -/
def sizeAttr : Str → Option Str
  | [] => none
  | c :: s =>
    if Regex.space c then
      if "width=".toList.isPrefixOf s then quoted (s.drop 6)
      else if "height=".toList.isPrefixOf s then quoted (s.drop 7)
      else if "style=".toList.isPrefixOf s then quoted (s.drop 6)
      else none
    else none

/-- `SVG_STRIP_ATTRS.replace_all(…, "")` (`parse_image_block.rs:157`); the number bounds the steps -/
def strip : Nat → Str → Str
  | 0, s => s
  | _, [] => []
  | n + 1, c :: s =>
    match sizeAttr (c :: s) with
    | some rest => strip n rest
    | none => c :: strip n s

/-- `SVG_START_TAG.replace(…)`: the first `<svg` (`regx.rs:60`, `parse_image_block.rs:158-160`) -/
def replaceSvg (by_ : Str) : Str → Str
  | [] => []
  | c :: s => if "<svg".toList.isPrefixOf (c :: s) then by_ ++ s.drop 3 else c :: replaceSvg by_ s

/-- `parse_image_block.rs:134-162`: the text that is put into the page -/
def svgText (a : Attrs) (file : Str) : Str :=
  let buf := trimAscii ((lastSvg file).getD file)
  let width := a.named "width" <|> a.pos 1
  let height := a.named "height" <|> a.pos 2
  if width.isNone && height.isNone then buf
  else
    let start := "<svg ".toList ++
      (match width with | some v => "width=\"".toList ++ v ++ ['"'] | none => []) ++
      (match height with | some v => "height=\"".toList ++ v ++ ['"'] | none => [])
    replaceSvg start (strip buf.length buf)

/-- `parse_image_block.rs:119-168` — `parse_inline_svg` -/
def inlineSvg (w : World) (m : DocumentMeta) (target : Str) (isUri : Bool) (a : Attrs) : ImageKind × Option Target :=
  let got := imageBytes w m target isUri .inlineSvg
  match got.bytes.bind w.decode with
  | none => (.inlineSvg none, got.asked)
  | some file =>
    let image := svgText a file
    (if image = [] then .inlineSvg none else .inlineSvg (some image), got.asked)

/-- `parse_image_block.rs:103-117` — `parse_data_uri`. The encoder does not panic (C26). -/
def dataUri (w : World) (m : DocumentMeta) (target : Str) (isUri : Bool) : ImageKind × Option Target :=
  let got := imageBytes w m target isUri .dataUri
  (.dataUri (got.bytes.bind Base64.encode), got.asked)

/-- `parse_image_block.rs:28-45` — `parse_image_kind`, and the file it asks for -/
def imageKind (w : World) (m : DocumentMeta) (target : Str) (isUri : Bool) (a : Attrs) (block : Option Attrs) : ImageKind × Option Target :=
  if inlined m target a block then inlineSvg w m target isUri a
  else if !m.isTrue "data-uri" || "data:".toList.isPrefixOf target || disallowed m isUri .dataUri then (.standard, none)
  else dataUri w m target isUri

/-- `parser.rs:353-367` — `lockdown_secure_mode` -/
def lockdown (m : DocumentMeta) : DocumentMeta :=
  if m.safeMode = .modeSecure then
    let m := (m.insertJobAttr "data-uri" ⟨true, .bool false⟩).1
    let m := if (m.get "max-attribute-value-size").isNone then
      (m.insertJobAttr "max-attribute-value-size" ⟨true, .string "4096"⟩).1 else m
    let m := if (m.get "linkcss").isNone then (m.insertJobAttr "linkcss" ⟨true, .string ""⟩).1 else m
    if (m.get "icons").isNone then (m.insertJobAttr "icons" ⟨true, .bool false⟩).1 else m
  else m

/-! ### icons of admonitions -/

/-- `ast/src/admonition.rs:4-10` -/
inductive Admonition where
  | tip | caution | important | note | warning
deriving DecidableEq

/-- `admonition.rs:13-21` — `lowercase_str` -/
def Admonition.lower : Admonition → Str
  | .tip => "tip".toList
  | .caution => "caution".toList
  | .important => "important".toList
  | .note => "note".toList
  | .warning => "warning".toList

/-- `admonition.rs:23-31` — `str` -/
def Admonition.label : Admonition → Str
  | .tip => "Tip".toList
  | .caution => "Caution".toList
  | .important => "Important".toList
  | .note => "Note".toList
  | .warning => "Warning".toList

/-- `admonition.rs:33-41` — `caption_name` -/
def Admonition.captionName : Admonition → String
  | .tip => "tip-caption"
  | .caution => "caution-caption"
  | .important => "important-caption"
  | .note => "note-caption"
  | .warning => "warning-caption"

/-- `parse_image_block.rs:47-101` — `maybe_set_admonition_icon_uri`: the data uri that is kept for the block, if any, and the file
asked for. `icon` is the attribute `icon` of the block. -/
def iconUri (w : World) (m : DocumentMeta) (kind : Admonition) (icon : Option Str) : Option Str × Option Target :=
  if !m.isTrue "data-uri" then (none, none)
  else if !m.isTrue "icons" || str m "icons" = some "font".toList then (none, none)
  else if disallowed m false .admonitionIcon then (none, none)
  else
    let ext := (str m "icontype").getD ((str m "icons").getD "png".toList)
    let ext := if ext = [] then "png".toList else ext
    let filename := icon.getD kind.lower ++ '.' :: ext
    let got := imageBytes w m filename false .admonitionIcon
    (some ("data:image/".toList ++ (if ext = "svg".toList then "svg+xml".toList else ext) ++ ";base64,".toList ++
      (got.bytes.bind Base64.encode).getD []), got.asked)

/-- `core/src/document_meta.rs:200-210` — `icon_mode` -/
inductive IconMode where
  | text | image | font
deriving DecidableEq

/-- `core/src/document_meta.rs:200-210` — `icon_mode` -/
def iconMode (m : DocumentMeta) : IconMode :=
  match m.get "icons" with
  | some (.string s) => if s = "font" then .font else if s = "image" ∨ s = "" then .image else .text
  | some (.bool true) => .image
  | _ => .text

/-- `backend.rs:231-247` — `push_icon_img_path` -/
def iconDir (m : DocumentMeta) : Str :=
  (match (str m "iconsdir").filter (· ≠ []) with
    | some d => d
    | none => match (str m "imagesdir").filter (· ≠ []) with
      | some d => d
      | none => "./images/icons".toList) ++ ['/']

/-- `backend.rs:249-267` — `push_icon_inferred_img_ext` -/
def iconExt (m : DocumentMeta) : Str :=
  '.' :: match (str m "icontype").filter (· ≠ []) with
    | some t => t
    | none => match (str m "icons").filter (fun i => i ≠ "font".toList ∧ i ≠ "image".toList ∧ i ≠ []) with
      | some i => i
      | none => "png".toList

/-- `backend.rs:225-229` — `push_icon_uri` -/
def iconPath (m : DocumentMeta) (name pre : Str) : Str := iconDir m ++ pre ++ name ++ iconExt m

/-- `core/src/file.rs:12-14` — `has_ext` -/
def hasExt (s : Str) : Bool := (basename s).contains '.'

/-- `backend.rs:548-566` — `push_admonition_block_textlabel`; `caption` is the attribute of the block -/
def textLabel (m : DocumentMeta) (kind : Admonition) (caption : Option Str) : Str :=
  match caption with
  | some c => c
  | none => if m.isFalse kind.captionName then [] else (str m kind.captionName).getD kind.label

/-- `asciidoctor_html.rs:1651-1662` and `1341-1350`: an icon that is an image -/
def iconImage (src label : Str) : Str := "<img src=\"".toList ++ src ++ "\" alt=\"".toList ++ label ++ "\">".toList

/-- `asciidoctor_html.rs:1351-1368`: the icon of the kind of admonition -/
def kindIcon (mode : IconMode) (path label : Str) (kind : Admonition) (uri : Option Str) : Str :=
  match mode with
  | .text => "<div class=\"title\">".toList ++ label ++ "</div>".toList
  | .image => iconImage (uri.getD path) label
  | .font => "<i class=\"fa icon-".toList ++ kind.lower ++ "\" title=\"".toList ++ label ++ "\"></i>".toList

/-- `asciidoctor_html.rs:1336-1368`, `1651-1662`: what is in the icon cell of an admonition -/
def iconCell (m : DocumentMeta) (kind : Admonition) (icon caption uri : Option Str) : Str :=
  match icon.filter (fun _ => iconMode m ≠ .image ∨ uri.isNone) with
  | some c => iconImage (iconDir m ++ c ++ (if hasExt c then [] else iconExt m)) (textLabel m kind caption)
  | none => kindIcon (iconMode m) (iconPath m kind.lower []) (textLabel m kind caption) kind uri

/-- `asciidoctor_html.rs:1082-1096` (`visit_callout`), `backend.rs:636-641` and `asciidoctor_html.rs:1673-1677`: the mark of a callout in a
listing, after the space; `n` is its number, `xml` is whether it was written as a comment of XML -/
def calloutMark (m : DocumentMeta) (n : Str) (xml : Bool) : Str :=
  match iconMode m with
  | .image => iconImage (iconPath m n "callouts/".toList) n
  | .font => "<i class=\"conum\" data-value=\"".toList ++ n ++ "\"></i><b>(".toList ++ n ++ ")</b>".toList
  | .text => (if xml then "&lt;!--".toList else []) ++ "<b class=\"conum\">(".toList ++ n ++ ")</b>".toList ++
      (if xml then "--&gt;".toList else [])

/-! ### the elements of images -/

/-- `backend.rs:318-326` — `push_img_path`, before it is encoded -/
def imgPath (m : DocumentMeta) (target : Str) : Str :=
  match str m "imagesdir" with
  | some dir => ((fromOptionalSep dir (some '/')).push (Path.new target)).display
  | none => target

/-- `core/src/file.rs:2-9` — `ext` -/
def ext (s : Str) : Option Str :=
  if hasExt s then some ((basename s).reverse.takeWhile (· ≠ '.')).reverse else none

/-- the alternative text (`backend.rs:853-862`) -/
def altText (target : Str) (a : Attrs) : Str :=
  match a.named "alt" <|> a.pos 0 with
  | some alt => alt
  | none => (stem target).map fun c => if c = '-' ∨ c = '_' then ' ' else c

/-- the source of an image whose file is embedded (`backend.rs:834-847`) -/
def dataSrc (target : Str) (data : Option Str) : Str :=
  "data:image/".toList ++ (match ext target with
    | some e => if e = "svg".toList then "svg+xml".toList else e
    | none => "application/octet-stream".toList) ++ ";base64,".toList ++ data.getD []

/-- `backend.rs:825-870` — `render_inner_image` of an embedded image -/
def dataImage (target : Str) (data : Option Str) (a : Attrs) (isBlock : Bool) : Str :=
  "<img src=\"".toList ++ dataSrc target data ++ "\" alt=\"".toList ++ escape true (altText target a) ++ ['"'] ++
    namedOrPos "width" 1 a ++ namedOrPos "height" 2 a ++
    (if isBlock then [] else match a.named "title" with | some v => Escape.attr "title".toList v | none => []) ++ ['>']

/-- `backend.rs:299-316` — `render_interactive_svg` -/
def interactive (m : DocumentMeta) (target : Str) (a : Attrs) : Str :=
  "<object type=\"image/svg+xml\" data=\"".toList ++ urlEncode (imgPath m target) ++ ['"'] ++
    namedOrPos "width" 1 a ++ namedOrPos "height" 2 a ++ ['>'] ++
    (match a.named "fallback" with
      | some f => "<img src=\"".toList ++ urlEncode (imgPath m f) ++ ['"'] ++ namedOrPos "alt" 0 a ++ ['>']
      | none => match a.named "alt" <|> a.pos 0 with
        | some alt => "<span class=\"alt\">".toList ++ alt ++ "</span>".toList
        | none => []) ++ "</object>".toList

/-- `backend.rs:269-297` — `render_image` -/
def renderImage (m : DocumentMeta) (target : Str) (a : Attrs) (kind : ImageKind) (isBlock : Bool) : Str :=
  match kind with
  | .dataUri data => dataImage target data a isBlock
  | .standard =>
    let format := a.named "format" <|> ext target
    if (format = some "svg".toList ∨ format = some "SVG".toList) ∧ "interactive" ∈ a.options ∧ m.safeMode ≠ .modeSecure then
      interactive m target a
    else innerImage target (imgPath m target) a isBlock
  | .inlineSvg (some text) => text
  | .inlineSvg none => "<span class=\"alt\">".toList ++ altText target a ++ "</span>".toList

/-- the link around an image: `asciidoctor_html.rs:1180-1198`. `href` is what stands in the page. -/
def linkTag (href : Str) (a : Attrs) : Str :=
  let t := (Tag.new true "a".toList {}).cls "image".toList
  let t := ((t.str "\" href=\"".toList).str href).str ['"']
  let t := { t with opened := false }
  (t.linkAttrs a true false).finish

/-- the link of an image in a line: `asciidoctor_html.rs:1180-1194` -/
def inlineHref (m : DocumentMeta) (target : Str) (a : Attrs) (kind : ImageKind) : Option Str :=
  ((a.named "link").filter fun l => kind = .standard ∨ l ≠ "self".toList).map fun l =>
    if l = "self".toList then urlEncode (imgPath m target) else escape true l

/-- `asciidoctor_html.rs:1172-1207` — `visit_image_macro`, without the `span` around it -/
def inlineImage (m : DocumentMeta) (target : Str) (a : Attrs) (kind : ImageKind) : Str :=
  match inlineHref m target a kind with
  | some href => linkTag href a ++ renderImage m target a kind false ++ "</a>".toList
  | none => renderImage m target a kind false

/-- the link of an image block: `asciidoctor_html.rs:1400-1414` -/
def blockHref (a : Attrs) (block : Attrs) (kind : ImageKind) : Option Str :=
  (block.named "link" <|> a.named "link").filter fun l => kind = .standard ∨ l ≠ "self".toList

/-- `asciidoctor_html.rs:1398-1419` — `enter_image_block`, what is in `<div class="content">` -/
def blockImage (m : DocumentMeta) (target : Str) (a block : Attrs) (kind : ImageKind) : Str :=
  match blockHref a block kind with
  | some href => linkTag href a ++ renderImage m target a kind true ++ "</a>".toList
  | none => renderImage m target a kind true

/-- the link of an image block: `html5s.rs:1328-1352` -/
def blockHref5 (m : DocumentMeta) (target : Str) (a block : Attrs) : Option Str :=
  ((block.named "link" <|> a.named "link" <|>
      (if str m "html5s-image-default-link" = some "self".toList then some "self".toList else none)).filter
    (· ≠ "none".toList)).map fun h => if h = "self".toList then target else h

end Verif.Images

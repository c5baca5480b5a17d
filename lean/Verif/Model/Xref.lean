import Verif.Model.OpenTag
/-!
Cross references: where they lead and which of them are reported.

Models `backend/src/utils.rs:3-104` (the links), `core/src/file.rs:1-33` (file names),
`backend/src/html/backend.rs:119-128,331-347` (the tag and the text of a reference without text),
`parser/src/tasks/parse_inlines/mod.rs:905-913` (what is remembered of a reference),
`parser/src/tasks/diagnose_document.rs:10-68` (what is reported), `parser/src/parser.rs:399-428` and
`parser/src/lexer/root_lexer.rs:147-155` (which source a path names).

Simplifications: texts are lists of characters; a location is the number of its source and a position; the map of
references is a list in the order in which the `HashMap` yields them, which is arbitrary.
-/
namespace Verif.Xref

abbrev Str := List Char

export Verif.OpenTag (basename)

/-- `file.rs:11-13` — `has_ext` -/
def hasExt (s : Str) : Bool := (basename s).contains '.'

/-- `file.rs:2-9` — `ext`: what follows the last dot of the name -/
def ext (s : Str) : Option Str :=
  if hasExt s then some ((basename s).reverse.takeWhile (· ≠ '.')).reverse else none

/-- `file.rs:15-20` — `has_adoc_ext` -/
def hasAdocExt (s : Str) : Bool :=
  match ext s with
  | some e => e = "adoc".toList || e = "asciidoc".toList || e = "asc".toList || e = "ad".toList
  | none => false

/-- `file.rs:22-29` — `remove_ext`: what stands before the last dot of the path -/
def removeExt (s : Str) : Str :=
  if hasExt s then ((s.reverse.dropWhile (· ≠ '.')).drop 1).reverse else s

/-- `ast/src/macro.rs:55` — `<<…>>` or `xref:…[]` -/
inductive Kind where
  | shorthand | macro
deriving DecidableEq, Repr

/-- the attributes of the document that decide where a reference leads (`DocumentMeta::str`) and the files it includes -/
structure Meta where
  docfilename : Option Str := none
  relfileprefix : Option Str := none
  relfilesuffix : Option Str := none
  outfilesuffix : Option Str := some ".html".toList
  included : List Str := []

/-- `utils.rs:89-97` — `is_interdoc` -/
def isInterdoc (target : Str) (kind : Kind) : Bool :=
  if target.head? = some '#' then false
  else match kind with
    | .shorthand => target.contains '#'
    | .macro => target.contains '#' || (basename target).contains '.'

/-- `utils.rs:99-101` — `remove_leading_hash` -/
def removeLeadingHash (s : Str) : Str := if s.head? = some '#' then s.drop 1 else s

/-- `utils.rs:55-74` — `xref_path_was_included` -/
def pathWasIncluded (path : Str) (m : Meta) : Bool :=
  if hasAdocExt path then
    if some path = m.docfilename then true else m.included.any (· = path)
  else if !hasExt path then m.included.any (removeExt · = path)
  else false

/-- `utils.rs:76-81` — `push_interdoc_suffix` -/
def suffix (m : Meta) : Str :=
  match m.relfilesuffix with
  | some s => s
  | none => m.outfilesuffix.getD []

/-- `str::splitn(2, '#')`: the part before the first `#` and, if there is one, the part behind it -/
def splitHash (s : Str) : Str × Option Str :=
  (s.takeWhile (· ≠ '#'), if s.contains '#' then some ((s.dropWhile (· ≠ '#')).drop 1) else none)

/-- `utils.rs:15-53` — `interdoc_xref_href` -/
def interdocHref (target : Str) (m : Meta) (kind : Kind) (withId : Bool) : Str :=
  let path := (splitHash target).1
  let id := (splitHash target).2.filter (!·.isEmpty)
  if pathWasIncluded path m then '#' :: id.getD []
  else
    let href := m.relfileprefix.getD []
    let href := href ++ (if hasAdocExt path then removeExt path else path)
    let href := if kind = .shorthand || hasAdocExt path || !(basename path).contains '.' then href ++ suffix m else href
    if !withId then href
    else match id with
      | some id => href ++ '#' :: id
      | none => href

/-- `utils.rs:7-13` — `href` -/
def href (target : Str) (m : Meta) (kind : Kind) (withId : Bool) : Str :=
  if !isInterdoc target kind then '#' :: removeLeadingHash target else interdocHref target m kind withId

/-- `html/backend.rs:119-128` — `enter_xref`, outside of another reference -/
def enterXref (target : Str) (m : Meta) (kind : Kind) : Str :=
  "<a href=\"".toList ++ href target m kind true ++ "\">".toList

/-- `html/backend.rs:331-347` — `render_missing_xref`; `reftext` is that of the title of the document -/
def missingXref (target : Str) (m : Meta) (kind : Kind) (reftext doctitle : Option Str) : Str :=
  if target = ['#'] || some target = m.docfilename then
    match reftext with
    | some t => t
    | none => doctitle.getD "[^top]".toList
  else if isInterdoc target kind then removeLeadingHash (href target m kind false)
  else '[' :: removeLeadingHash target ++ [']']

/-! ### reporting -/

/-- `parser.rs` — `SourceFile`; a path has a name and a full form (`core/src/path.rs`) -/
inductive Source where
  | stdin | tmp
  | path (name full : Str)
deriving DecidableEq

/-- `parser.rs:399-405` — `file_name` -/
def Source.fileName : Source → Str
  | .stdin => "<stdin>".toList
  | .tmp => "<temp-buffer>".toList
  | .path name _ => name

/-- `parser.rs:407-428` — `matches_xref_target` -/
def Source.matches (target : Str) : Source → Bool
  | .path name full =>
    if name = target then true
    else if (ext target).isSome && ext target ≠ ext name then false
    else if target.isSuffixOf full then true
    else if (ext target).isSome then false
    else target.isSuffixOf (removeExt full)
  | _ => false

/-- a place: the number of the source and the position -/
abbrev Loc := Nat × Nat

/-- `HashMap::insert` -/
def put (r : List (Str × Loc)) (t : Str) (l : Loc) : List (Str × Loc) :=
  match r with
  | [] => [(t, l)]
  | (k, b) :: r => if k = t then (k, l) :: r else (k, b) :: put r t l

/-- `parse_inlines/mod.rs:905-913` — `push_xref` -/
def pushXref (r : List (Str × Loc)) (x : Str × Loc) : List (Str × Loc) :=
  if x.1.length > 1 && x.1.head? = some '#' then put r (x.1.drop 1) (x.2.1, x.2.2 + 1) else put r x.1 x.2

/-- all references of a document, in the order of their text -/
def collect (xs : List (Str × Loc)) : List (Str × Loc) := xs.foldl pushXref []

/-- what the parser knows at the end of the document -/
structure Parsed where
  sources : List Source
  /-- `document.anchors`: the id and the number of the source of each anchor -/
  anchors : Str → Option Nat

/-- `diagnose_document.rs:43-68` — `target_data` -/
def targetData (p : Parsed) (target : Str) (depth : Nat) : Option (Nat × Str) :=
  if target = ['#'] then some (depth, "__self__".toList)
  else if target.head? = some '#' then some (depth, target)
  else if target.contains '#' then
    let prefix' := (splitHash target).1
    let id := (splitHash target).2.getD []
    if hasAdocExt prefix' || (ext prefix').isNone then
      (p.sources.findIdx? (·.matches prefix')).map (·, id)
    else some (depth, id)
  else if hasAdocExt target && target.isSuffixOf ((p.sources.head?.map Source.fileName).getD []) then
    some (0, "__self__".toList)
  else some (depth, target)

/-- `diagnose_document.rs:15-33` — one round of the loop: is the reference reported? -/
def invalid (p : Parsed) (x : Str × Loc) : Bool :=
  match targetData p x.1 x.2.1 with
  | none => true
  | some (idx, id) =>
    if id = "__self__".toList then false
    else match p.anchors id with
      | none => true
      | some src => src ≠ idx

/-- `diagnose_document.rs:10-35` — `diagnose_invalid_xrefs` outside of table cells: the targets reported, with their places,
in the order of the map -/
def diagnose (p : Parsed) (refs : List (Str × Loc)) : List (Str × Loc) := refs.filter (invalid p)

end Verif.Xref

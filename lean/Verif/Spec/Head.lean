import Verif.Model.Meta
import Verif.Model.Images
import Verif.Model.Inlines
import Verif.Spec.StartTag
/-!
What is expected of the head of a page, independent of the model of it. Attributes of documents are read as `Verif.Model.Meta` says.
-/
namespace Verif.Spec.Head
open Verif.StartTag Verif.OpenTag Verif.Spec.Escape Verif.Images

/-- the text is these start tags, one after the other -/
inductive Reads : Str → List (String × List (String × Str)) → Prop where
  | nil : Reads [] []
  | cons {s rest : Str} {name : String} {attrs : List (String × Str)} {l : List (String × List (String × Str))} :
      Says s name attrs → Reads rest l → Reads (s ++ rest) ((name, attrs) :: l)

/-- a `meta` element with a name and a value -/
def named (name : String) (value : Str) : String × List (String × Str) := ("meta", [("name", name.toList), ("content", value)])

/-- the attributes of the document that are shown as `meta` elements, and the names they have there -/
def described : List (String × String) :=
  [("app-name", "application-name"), ("description", "description"), ("keywords", "keywords"), ("copyright", "copyright")]

/-- the full name of an author: the parts with spaces between them -/
def fullName (a : Author) : Str :=
  a.first.toList ++ (match a.middle with | some x => ' ' :: x.toList | none => []) ++ ' ' :: a.last.toList

/-- with a comma and a space between them -/
def commas : List Str → Str
  | [] => []
  | x :: xs => x ++ xs.flatMap fun y => ',' :: ' ' :: y

/-- what the `html` element says: its language, unless that is not wanted -/
def languageSays (m : DocumentMeta) : List (String × Str) :=
  if m.get "nolang" = some (.bool true) then []
  else [("lang", match str m "lang" with | some l => unescape l | none => "en".toList)]

/-- the kind of image an icon is: named by the ending of its file -/
def iconSays (m : DocumentMeta) (ending : Option Str) : List (String × List (String × Str)) :=
  match m.get "favicon" with
  | some (.string p) =>
    [("link", [("rel", "icon".toList), ("type", "image/".toList ++ match ending with | some e => unescape e | none => "ico".toList),
      ("href", unescape p.toList)])]
  | some (.bool true) => [("link", [("rel", "icon".toList), ("type", "image/x-icon".toList), ("href", "favicon.ico".toList)])]
  | _ => []

/-- the start tags of the head, up to the title -/
def headSays (m : DocumentMeta) (ending : Option Str) : List (String × List (String × Str)) :=
  [("html", languageSays m), ("head", []),
    ("meta", [("charset", match str m "encoding" with | some e => unescape e | none => "UTF-8".toList)]),
    ("meta", [("http-equiv", "X-UA-Compatible".toList), ("content", "IE=edge".toList)]),
    named "viewport" "width=device-width, initial-scale=1.0".toList] ++
  (if m.get "reproducible" = some (.bool true) then [] else [named "generator" "Asciidork".toList]) ++
  (described.flatMap fun (attr, name) => (str m attr).toList.map fun v => named name (unescape v)) ++
  iconSays m ending ++
  (if m.authors = [] then [] else [named "author" (unescape (commas (m.authors.map fullName)))])

/-- the ending of a file name: it follows the last full stop of the last part of a path, which is not the first character of it -/
def Ending (path : Str) (e : Option Str) : Prop :=
  ∃ dir name, path = dir ++ name ∧ '/' ∉ name ∧ (dir = [] ∨ dir.getLast? = some '/') ∧
    match e with
    | some e => ∃ stem, name = stem ++ '.' :: e ∧ stem ≠ [] ∧ '.' ∉ e ∧ name ≠ "..".toList
    | none => name = "..".toList ∨ ('.' ∉ name.drop 1)

/-- the values in the head have no quotes -/
structure Unquoted (m : DocumentMeta) : Prop where
  attrs : ∀ k ∈ ["lang", "encoding", "app-name", "description", "keywords", "copyright", "favicon"], ∀ v, str m k = some v → '"' ∉ v
  authors : ∀ a ∈ m.authors, '"' ∉ fullName a

/-- capital letters count as small ones -/
def lower (c : Char) : Char := if 'A' ≤ c ∧ c ≤ 'Z' then Char.ofNat (c.toNat + 32) else c

/-- the text of an element that has only text in it, such as `title` and `style`: it ends with the first end tag of the element -/
def TextElement (s : Str) (name : String) (text : Str) : Prop :=
  s = '<' :: name.toList ++ '>' :: text ++ '<' :: '/' :: name.toList ++ ['>'] ∧
  ¬ ∃ a b c, text = a ++ b ++ c ∧ b.map lower = '<' :: '/' :: name.toList

/-- the text of a heading, if it has only text, special characters, quotes, dashes, spaces and passthroughs in it -/
def headingText : List Inlines.Leaf → Option Str
  | [] => some []
  | .text s :: ls => (headingText ls).map (s ++ ·)
  | .newline :: ls => (headingText ls).map (' ' :: ·)
  | .spaces _ :: ls => (headingText ls).map (' ' :: ·)
  | .special .ampersand :: ls => (headingText ls).map ('&' :: ·)
  | .special .lessThan :: ls => (headingText ls).map ('<' :: ·)
  | .special .greaterThan :: ls => (headingText ls).map ('>' :: ·)
  | .curly .leftDouble :: ls => (headingText ls).map ('“' :: ·)
  | .curly .rightDouble :: ls => (headingText ls).map ('”' :: ·)
  | .curly .leftSingle :: ls => (headingText ls).map ('‘' :: ·)
  | .curly .rightSingle :: ls => (headingText ls).map ('’' :: ·)
  | .symbol .emDash :: ls => (headingText ls).map ('—' :: ·)
  | .curly .apostrophe :: ls => (headingText ls).map ('\'' :: ·)
  | .dashes n _ :: ls => if n = 2 then (headingText ls).map (fun t => ' ' :: '—' :: ' ' :: t) else none
  | .passthru s :: ls => (headingText ls).map (s ++ ·)
  | .lineComment _ :: ls => headingText ls
  | .discarded :: ls => headingText ls
  | _ :: _ => none

/-- the signs that are written with more than one character, and how they are written -/
def signs : List (Inlines.Sym × String) :=
  [(.copyright, "(C)"), (.trademark, "(TM)"), (.registered, "(R)"), (.tripleDash, "---"), (.ellipsis, "..."),
   (.singleRightArrow, "->"), (.doubleRightArrow, "=>"), (.singleLeftArrow, "<-"), (.doubleLeftArrow, "<=")]

/-- the title that the page should have: what the document says, else the text of its heading, else `Untitled` -/
def Wanted (m : DocumentMeta) (heading : Option (List Inlines.Leaf)) (t : Str) : Prop :=
  str m "title" = some t ∨
  (str m "title" = none ∧ ((∃ ls, heading = some ls ∧ headingText ls = some t) ∨ (heading = none ∧ t = "Untitled".toList)))

/-- what the `body` element says -/
def bodySays (m : DocumentMeta) : List (String × Str) :=
  opt "id" ((str m "css-signature").map unescape) ++
    [("class", m.doctype.toStr.toList ++
      (if m.get "toc" = some (.string "left") then " toc2 toc-left".toList
      else if m.get "toc" = some (.string "right") then " toc2 toc-right".toList else []))]

end Verif.Spec.Head

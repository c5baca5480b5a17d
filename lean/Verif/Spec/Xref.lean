import Verif.Model.Xref
/-!
Specification: what a cross reference names, how it is written, where it should lead.
-/
namespace Verif.Xref

/-- the top of the document, an anchor of the document, or a file and perhaps an anchor in it; the file has a directory
(with its last slash), a name and perhaps an extension -/
inductive Ref where
  | top
  | anchor (id : Str)
  | file (dir name : Str) (ext id : Option Str)

/-- an extension with its dot -/
def dotted : Option Str → Str
  | some e => '.' :: e
  | none => []

/-- how a reference is written; `hash`: with a `#` that is not needed -/
def Ref.written (hash : Bool) : Ref → Str
  | .top => ['#']
  | .anchor id => if hash then '#' :: id else id
  | .file dir name e id => dir ++ name ++ dotted e ++
    (match id with | some id => '#' :: id | none => if hash then ['#'] else [])

/-- none of the characters that separate the parts of a path -/
def Simple (s : Str) : Prop := '/' ∉ s ∧ '\\' ∉ s ∧ '#' ∉ s ∧ '.' ∉ s

/-- a reference can be written this way: an anchor without `#` has none in its name and, in a macro, no dot; a file without
`#` is in a macro and has an extension -/
def Ref.Wf (kind : Kind) (hash : Bool) : Ref → Prop
  | .top => True
  | .anchor id => id ≠ [] ∧ (hash = false → '#' ∉ id ∧ (kind = .macro → '.' ∉ id))
  | .file dir name e id => (dir = [] ∨ dir.getLast? = some '/') ∧ '#' ∉ dir ∧ Simple name ∧ (∀ x, e = some x → Simple x) ∧
    dir ++ name ++ dotted e ≠ [] ∧ id ≠ some [] ∧ (id = none → hash = false → kind = .macro ∧ e.isSome)

/-- the extensions of AsciiDoc files -/
def adocs : List Str := ["adoc", "asciidoc", "asc", "ad"].map String.toList

/-- the text of the file is on the same page -/
def OnPage (m : Meta) (dir name : Str) : Option Str → Prop
  | none => ∃ f ∈ m.included, f = dir ++ name ∨ ∃ e, '.' ∉ e ∧ '/' ∉ e ∧ '\\' ∉ e ∧ f = dir ++ name ++ '.' :: e
  | some e => e ∈ adocs ∧ (m.docfilename = some (dir ++ name ++ '.' :: e) ∨ dir ++ name ++ '.' :: e ∈ m.included)

/-- the page of a file: it is named after the file without its extension; in a macro a file that is not AsciiDoc is named as
it is, and in a shorthand what looks like an extension is a part of the name -/
def page (m : Meta) (kind : Kind) (dir name : Str) (e : Option Str) : Str :=
  m.relfileprefix.getD [] ++ dir ++ name ++ (if e.any (· ∈ adocs) then [] else dotted e) ++
    (if kind = .macro ∧ e.any (· ∉ adocs) then [] else (m.relfilesuffix <|> m.outfilesuffix).getD [])

/-- where a reference leads -/
def Leads (m : Meta) (kind : Kind) (h : Str) : Ref → Prop
  | .top => h = ['#']
  | .anchor id => h = '#' :: id
  | .file dir name e id =>
    (OnPage m dir name e → h = '#' :: id.getD []) ∧
    (¬ OnPage m dir name e → h = page m kind dir name e ++ (match id with | some id => '#' :: id | none => []))

end Verif.Xref

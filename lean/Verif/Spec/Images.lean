import Verif.Model.Split
import Verif.Model.Regex
import Verif.Spec.StartTag
/-!
What is expected of images and icons, independent of the model.
-/
namespace Verif.Spec.Images
open Verif.Split Verif.OpenTag

/-- a part of a path: a name, `.` or `..`, on systems where `/` separates them -/
def Part (w : Str) : Prop := w ≠ [] ∧ '/' ∉ w ∧ '\\' ∉ w ∧ w ≠ "http:".toList ∧ w ≠ "https:".toList

/-- a relative path: parts with `/` between them, and no drive -/
def Relative (s : Str) : Prop :=
  ∃ ws, ws ≠ [] ∧ (∀ w ∈ ws, Part w) ∧ s = joinWith '/' ws ∧ ∀ c rest, s ≠ c :: ':' :: rest

/-- an absolute path -/
def Absolute (s : Str) : Prop := ∃ r, Relative r ∧ s = '/' :: r

/-- a web address of a directory -/
def Remote (s : Str) : Prop := ∃ r, Relative r ∧ (s = "http://".toList ++ r ∨ s = "https://".toList ++ r)

/-- what a path means in a directory (or at an address) -/
def within (dir path : Str) : Str := if path.head? = some '/' then path else dir ++ '/' :: path

/-- what a path means in a directory that may be missing -/
def withinOpt (dir : Option Str) (path : Str) : Str := match dir with | some d => within d path | none => path

/-- the text has the word in it -/
def Has (word s : Str) : Prop := ∃ a b, s = a ++ word ++ b

/-- the name of a SVG file: `.svg` at the end, before a `?` or before a `[` (the long `s` is a small `s` here) -/
def SvgName (s : Str) : Prop :=
  ∃ pre x v g rest, s = pre ++ '.' :: x :: v :: g :: rest ∧ x ∈ ['s', 'S', 'ſ'] ∧ v ∈ ['v', 'V'] ∧ g ∈ ['g', 'G'] ∧
    (rest = [] ∨ ∃ c r, rest = c :: r ∧ (c = '?' ∨ c = '['))

/-- letters, digits and the signs that a scheme may have -/
def SchemeChar (c : Char) : Prop := c.isAlpha = true ∨ c.isDigit = true ∨ c = '.' ∨ c = '+' ∨ c = '-'

/-- an address: it has a scheme of two or more characters -/
def Address (s : Str) : Prop :=
  ∃ c d cs rest, s = c :: d :: cs ++ ':' :: rest ∧ c.isAlpha = true ∧ ∀ x ∈ d :: cs, SchemeChar x

/-- attributes that say how large an element is, or how it looks -/
def sizeNames : List Str := ["width".toList, "height".toList, "style".toList]

/-- a space, one of those of Unicode -/
def White (c : Char) : Prop := Verif.Regex.space c = true

/-- the text has one of those attributes in it -/
def HasSize (s : Str) : Prop := ∃ c n, White c ∧ n ∈ sizeNames ∧ Has (c :: n ++ ['=']) s

/-- an attribute in a start tag: the space before it, its name, the quotes and its value -/
structure SvgAttr where
  space : Char
  name : Str
  quote : Char
  value : Str

/-- as it is written -/
def SvgAttr.text (a : SvgAttr) : Str := a.space :: (a.name ++ '=' :: a.quote :: (a.value ++ [a.quote]))

/-- it is one that can be written so, and no value looks like another one -/
structure SvgAttr.Ok (a : SvgAttr) : Prop where
  space : White a.space
  name : ∀ c ∈ a.name, ¬ White c ∧ c ≠ '='
  quote : a.quote = '"' ∨ a.quote = '\''
  value : a.quote ∉ a.value ∧ ¬ HasSize a.value

/-- the attributes that do not say how large it is or how it looks -/
def others (as : List SvgAttr) : List SvgAttr := as.filter fun a => !sizeNames.contains a.name

/-- the attributes as written -/
def svgAttrs (as : List SvgAttr) : Str := as.flatMap SvgAttr.text

/-- what can follow the attributes of a start tag: its end, maybe after spaces -/
def TagEnd (s : Str) : Prop := ∃ c r, s = c :: r ∧ (White c ∨ c = '>' ∨ c = '/')

/-- the attributes of a size -/
def sizeText (width height : Option Str) : Str :=
  (match width with | some v => "width=\"".toList ++ v ++ ['"'] | none => []) ++
    (match height with | some v => "height=\"".toList ++ v ++ ['"'] | none => [])

end Verif.Spec.Images

import Verif.Model.TableTags
import Verif.Spec.StartTag
/-!
Specification: what the tags of tables, columns and cells should say.
-/
namespace Verif.TableTags
open Verif.OpenTag Verif.StartTag Verif.Columns Verif.Tables

/-- the text of an attribute of the document -/
def docText (m : DocumentMeta) (k : String) : Option Str :=
  match m.get k with
  | some (.string s) => some s.toList
  | _ => none

/-- the frame: what the block says, else what the document says, else all sides; a frame at the top and the bottom is called `ends` -/
def frameOf (a : Attrs) (m : DocumentMeta) : Str :=
  let f := (a.named "frame" <|> docText m "table-frame").getD "all".toList
  if f = "topbot".toList then "ends".toList else f

/-- the lines between cells: what the block says, else what the document says, else all -/
def gridOf (a : Attrs) (m : DocumentMeta) : Str := (a.named "grid" <|> docText m "table-grid").getD "all".toList

/-- the rows with another colour, if the block or the document says so -/
def stripesOf (a : Attrs) (m : DocumentMeta) : Option Str := a.named "stripes" <|> docText m "table-stripes"

/-- a number, with or without a percent sign -/
def WrittenPercent (s : Str) (n : Nat) : Prop :=
  ∃ plus zeros percent, (plus = [] ∨ plus = ['+']) ∧ (∀ c ∈ zeros, c = '0') ∧ (percent = [] ∨ percent = ['%']) ∧
    s = plus ++ zeros ++ Nat.toDigits 10 n ++ percent

/-- the width that the block asks for: a whole number up to 255, and not 100, which is the width of a table anyway -/
def IsWidth (a : Attrs) : Option Nat → Prop
  | some n => n ≤ 255 ∧ n ≠ 100 ∧ ∃ s, a.named "width" = some s ∧ WrittenPercent s n
  | none => ∀ s n, a.named "width" = some s → WrittenPercent s n → n = 100 ∨ 255 < n

/-- the width as a style -/
def percent (n : Nat) : Str := "width: ".toList ++ Nat.toDigits 10 n ++ "%;".toList

/-- whether a table is as wide as its place -/
def stretched (a : Attrs) (width : Option Nat) (fit : List Str) : List Str :=
  match width with
  | some _ => []
  | none => if "autowidth" ∈ a.options then fit else ["stretch".toList]

/-- what the tag of a table should say -/
def tableSays (a : Attrs) (m : DocumentMeta) (width : Option Nat) : List (String × Str) :=
  opt "id" (a.id.map seen) ++
    classes (["tableblock".toList, "frame-".toList ++ frameOf a m, "grid-".toList ++ gridOf a m] ++ stretched a width ["fit-content".toList] ++
      (a.named "float").toList ++ ((stripesOf a m).map ("stripes-".toList ++ ·)).toList ++ a.roles) ++
    opt "style" (width.map percent)

/-- the same in semantic pages, where the id and the roles are those of the element around the table -/
def tableSays5 (a : Attrs) (m : DocumentMeta) (width : Option Nat) : List (String × Str) :=
  classes (["frame-".toList ++ frameOf a m, "grid-".toList ++ gridOf a m] ++ stretched a width [] ++
      ((stripesOf a m).map ("stripes-".toList ++ ·)).toList) ++
    opt "style" (match width, a.named "float" with
      | none, none => none
      | some n, none => some (percent n)
      | none, some f => some ("float: ".toList ++ seen f ++ ";".toList)
      | some n, some f => some (percent n ++ "; ".toList ++ "float: ".toList ++ seen f ++ ";".toList))

/-- words for how things are aligned -/
def across : HAlign → Str
  | .left => "halign-left".toList
  | .center => "halign-center".toList
  | .right => "halign-right".toList

def along : VAlign → Str
  | .top => "valign-top".toList
  | .middle => "valign-middle".toList
  | .bottom => "valign-bottom".toList

/-- a number of columns or rows, if it is more than one -/
def span (n : Nat) : Option Str := if n ≤ 1 then none else some (Nat.toDigits 10 n)

/-- what the tag of a cell should say: how it is aligned, by itself or by its column, and the columns and rows that it spans -/
def cellSays (spec : CellSpec) (col : Option ColSpec) (semantic : Bool) : List (String × Str) :=
  classes ((if semantic then ["tableblock".toList] else []) ++
      [across ((spec.hAlign <|> col.map (·.hAlign)).getD .left), along ((spec.vAlign <|> col.map (·.vAlign)).getD .top)]) ++
    opt "colspan" (span (spec.colSpan.getD 1)) ++ opt "rowspan" (span (spec.rowSpan.getD 1))

/-- a numeral with a decimal point or without, and its value in ten thousandths -/
def Decimal (s : Str) (tenThousandths : Nat) : Prop :=
  (∃ n, s = Nat.toDigits 10 n ∧ tenThousandths = 10000 * n) ∨
  ∃ n frac k, s = Nat.toDigits 10 n ++ '.' :: frac ∧ frac ≠ [] ∧ (∀ c ∈ frac, c.isDigit = true) ∧ frac.length + k = 4 ∧
    tenThousandths = 10000 * n + Nat.ofDigitChars 10 frac 0 * 10 ^ k

/-- a width in ten thousandths is that part of a hundred, and no other is nearer -/
def Nearest (tenThousandths part whole : Nat) : Prop :=
  2 * (tenThousandths * whole) ≤ 2 * (part * 1000000) + whole ∧ 2 * (part * 1000000) ≤ 2 * (tenThousandths * whole) + whole

end Verif.TableTags

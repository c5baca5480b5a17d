import Verif.Model.Images
import Verif.Model.Tables
/-!
Model of the tags of tables: `dr-html-backend/src/asciidoctor_html.rs:793-800`, `1730-1779`, `backend-html5s/src/html5s.rs:717-725`, `1598-1645` and
`backend/src/html/table.rs`.
-/
namespace Verif.TableTags
open Verif.OpenTag Verif.Columns Verif.Tables

/-- `open_tag.rs:101-125` — `push_resolved_attr_class`; a class with a prefix (`open_tag.rs:88-99`) is the two texts together -/
def resolved (name : String) (default : Option Str) (docName : String) (pre : Str) (a : Attrs) (m : DocumentMeta) (t : Tag) : Tag :=
  match a.named name with
  | some v => if v = "topbot".toList ∧ name = "frame" then t.cls (pre ++ "ends".toList) else t.cls (pre ++ v)
  | none => match m.get docName with
    | some (.string s) => if s.toList = "topbot".toList ∧ name = "frame" then t.cls (pre ++ "ends".toList) else t.cls (pre ++ s.toList)
    | _ => match default with
      | some d => t.cls (pre ++ d)
      | none => t

/-- `str::parse::<u8>`: a plus sign may be before the digits -/
def parseU8 (s : Str) : Option Nat :=
  let ds := match s with
    | '+' :: r => r
    | s => s
  if ds.all Char.isDigit then parseNumber 255 ds else none

/-- `str::strip_suffix('%')`, or the text itself -/
def stripPercent (s : Str) : Str := if s.getLast? = some '%' then s.dropLast else s

/-- `asciidoctor_html.rs:1749-1755`, `html5s.rs:1617-1623` — `explicit_width` -/
def explicitWidth (a : Attrs) : Option Nat := ((a.named "width").bind fun w => parseU8 (stripPercent w)).filter (· ≠ 100)

/-- the width as a style -/
def widthStyle (n : Nat) : Str := "width: ".toList ++ Nat.toDigits 10 n ++ "%;".toList

/-- `asciidoctor_html.rs:1730-1779` — `finish_open_table_tag` -/
def finishTable (a : Attrs) (m : DocumentMeta) (t : Tag) : Tag :=
  let t := resolved "frame" (some "all".toList) "table-frame" "frame-".toList a m t
  let t := resolved "grid" (some "all".toList) "table-grid" "grid-".toList a m t
  let t := if "autowidth" ∈ a.options ∧ (explicitWidth a).isNone then t.cls "fit-content".toList
    else if (explicitWidth a).isNone then t.cls "stretch".toList else t
  let t := match a.named "float" with
    | some f => t.cls f
    | none => t
  let t := resolved "stripes" none "table-stripes" "stripes-".toList a m t
  match explicitWidth a with
  | some n => t.style (widthStyle n)
  | none => t

/-- `html5s.rs:1598-1645` — `finish_open_table_tag` -/
def finishTable5 (a : Attrs) (m : DocumentMeta) (t : Tag) : Tag :=
  let t := resolved "frame" (some "all".toList) "table-frame" "frame-".toList a m t
  let t := resolved "grid" (some "all".toList) "table-grid" "grid-".toList a m t
  let t := if ¬ "autowidth" ∈ a.options ∧ (explicitWidth a).isNone then t.cls "stretch".toList else t
  let t := resolved "stripes" none "table-stripes" "stripes-".toList a m t
  let t := match explicitWidth a with
    | some n => t.style (widthStyle n)
    | none => t
  match a.named "float" with
  | some f => t.style ("float: ".toList ++ f ++ ";".toList)
  | none => t

/-- `asciidoctor_html.rs:793-797` — `enter_table`: the tag -/
def tableTag (a : Attrs) (m : DocumentMeta) : Str := (finishTable a m ((Tag.new true "table".toList a).cls "tableblock".toList)).finish

/-- `html5s.rs:717-723` — `enter_table`: the tag of the table, in an element with the id and the roles -/
def tableTag5 (a : Attrs) (m : DocumentMeta) : Str := (finishTable5 a m (Tag.new true "table".toList {})).finish

/-- `ast/src/table.rs:211-219` — `HorizontalAlignment::word` -/
def hWord : HAlign → Str
  | .left => "left".toList
  | .center => "center".toList
  | .right => "right".toList

/-- `ast/src/table.rs:201-209` — `VerticalAlignment::word` -/
def vWord : VAlign → Str
  | .top => "top".toList
  | .middle => "middle".toList
  | .bottom => "bottom".toList

/-- `backend/src/html/table.rs:5-33` — `open_cell`; `header` is whether the cell is in the header row, `semantic` whether the class `tableblock`
is asked for -/
def openCell (c : Cell) (header semantic : Bool) : Str :=
  (if header ∨ c.style = .header then "<th class=\"".toList else "<td class=\"".toList) ++
    (if semantic then "tableblock ".toList else []) ++ "halign-".toList ++ hWord c.hAlign ++ " valign-".toList ++ vWord c.vAlign ++
    (if 1 < c.colSpan then "\" colspan=\"".toList ++ Nat.toDigits 10 c.colSpan else []) ++
    (if 1 < c.rowSpan then "\" rowspan=\"".toList ++ Nat.toDigits 10 c.rowSpan else []) ++ "\">".toList

/-- `format!("{:.4}")`, of a number that is not negative. Simplification: what is exactly in the middle is rounded up. -/
def fixed4 (q : Rat) : Str :=
  let w := (20000 * q.num.toNat + q.den) / (2 * q.den)
  let f := Nat.toDigits 10 (w % 10000)
  Nat.toDigits 10 (w / 10000) ++ '.' :: (List.replicate (4 - f.length) '0' ++ f)

/-- `str::trim_end_matches('0')` -/
def trimZeros (s : Str) : Str := (s.reverse.dropWhile (· = '0')).reverse

/-- `table.rs:41-47`: a width, as it is written; 0/0 is not a number -/
def shareText : Option Rat → Str
  | none => "NaN".toList
  | some q => if q.den = 1 then Nat.toDigits 10 q.num.toNat else trimZeros (fixed4 q)

/-- `table.rs:38-49` — one column -/
def colTag (autowidth : Bool) : Share → Str
  | .percentage q => if autowidth then "<col>".toList else "<col style=\"width: ".toList ++ shareText q ++ "%;\">".toList
  | .auto _ => "<col>".toList

/-- `table.rs:35-52` — `push_colgroup`: the tags of the columns; `none` is a panic -/
def colTags (ws : List Width) (a : Attrs) : Option (List Str) := (distribute ws).map fun l => l.map (colTag (decide ("autowidth" ∈ a.options)))

end Verif.TableTags

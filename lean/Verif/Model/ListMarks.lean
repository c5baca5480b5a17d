import Verif.Model.Images
import Verif.Model.Lists
/-!
Model of what the lists of a document are marked with: numbers, letters, check boxes and the numbers of callouts
(`backend/src/html/list.rs`, `backend/src/html/backend.rs:568-643`, `dr-html-backend/src/asciidoctor_html.rs:534-736`).

A list item is its marker, its check box and the lists in it, in their order, no matter in which blocks these are. Lists in
AsciiDoc table cells are rendered with a backend of their own, and are documents of their own here.
-/
namespace Verif.ListMarks
open Verif.OpenTag

/-- `ListVariant` (`ast/src/list.rs:53-58`) -/
inductive Variant where
  | ordered | unordered | callout | description
deriving DecidableEq

/-- what is asked of the attributes of a list: `str_positional_at(0)`, `named("start")`, `has_option("reversed")`,
`has_option("interactive")` -/
structure ListAttrs where
  style : Option Str := none
  start : Option Str := none
  reversed : Bool := false
  interactive : Bool := false

mutual
/-- a list -/
inductive Lst where
  | mk (variant : Variant) (attrs : ListAttrs) (items : List Item)
/-- an item: its marker, whether it has a check box and whether this is checked, and the lists in it -/
inductive Item where
  | mk (marker : Lists.Marker) (check : Option Bool) (inner : List Lst)
end

/-- the marker of an item -/
def Item.marker : Item → Lists.Marker | .mk m _ _ => m

/-- `ordered_list_custom_number_style` (`ast/src/attr_list.rs:164-175`) -/
def numberStyles : List Str :=
  ["arabic".toList, "decimal".toList, "loweralpha".toList, "upperalpha".toList, "lowerroman".toList, "upperroman".toList, "lowergreek".toList]

/-- `unordered_list_custom_marker_style` (`ast/src/attr_list.rs:149-161`) -/
def markerStyles : List Str :=
  ["square".toList, "circle".toList, "disc".toList, "none".toList, "no-bullet".toList, "unstyled".toList]

/-- `type_from_depth` (`list.rs:1-9`) -/
def typeFromDepth (d : Nat) : Str :=
  if d = 1 then "1".toList
  else if d = 2 then "a".toList
  else if d = 3 then "i".toList
  else if d = 4 then "A".toList
  else "I".toList

/-- `type_from_class` (`list.rs:11-20`) -/
def typeFromClass (c : Str) : Option Str :=
  [("arabic".toList, "1".toList), ("loweralpha".toList, "a".toList), ("lowerroman".toList, "i".toList),
    ("upperalpha".toList, "A".toList), ("upperroman".toList, "I".toList)].lookup c

/-- `class_from_depth` (`list.rs:22-30`) -/
def classFromDepth (d : Nat) : Str :=
  if d = 1 then "arabic".toList
  else if d = 2 then "loweralpha".toList
  else if d = 3 then "lowerroman".toList
  else if d = 4 then "upperalpha".toList
  else "upperroman".toList

/-- the number a list starts with: text from an attribute, or a number -/
inductive Start where
  | text (s : Str)
  | num (n : Nat)
deriving DecidableEq

/-- what an `ol` element is told -/
structure Ol where
  cls : Str
  type : Str
  start : Option Start
  reversed : Bool
deriving DecidableEq

/-- what is shown of a list -/
inductive Out where
  | ol (o : Ol)
  /-- the marker style, and whether it has check boxes -/
  | ul (style : Option Str) (checks : Bool)
  | callouts | terms
  /-- an item without a mark of its own -/
  | item
  | box (interactive checked : Bool)
  | callout (n : Nat)
  /-- the end of a list -/
  | close
deriving DecidableEq

/-- `desc_list_depth`, `interactive_list_stack` and `autogen_conum` of the backend -/
structure St where
  desc : Nat := 0
  stack : List Bool := []
  conum : Nat := 0

/-- `+ 1` on a `u8`; overflows panic -/
def succ8 (n : Nat) : Option Nat := if n + 1 < 256 then some (n + 1) else none

/-- `-` on `u8`s -/
def sub8 (a b : Nat) : Option Nat := if b ≤ a then some (a - b) else none

/-- the `start` of a list (`backend.rs:592-604`); `items[0]` panics without items -/
def startOf (a : ListAttrs) (items : List Item) : Option (Option Start) :=
  match a.start with
  | some s => some (some (.text s))
  | none => match items with
    | [] => none
    | i :: _ => match i.marker with
      | .digits n => some (if n = 1 then none else some (.num n))
      | _ => some none

/-- `start_enter_ordered_list`, `finish_enter_ordered_list` (`backend.rs:568-611`) without the changes of the state -/
def openOrdered (depth desc : Nat) (a : ListAttrs) (items : List Item) : Option Ol := do
  let d ← sub8 depth desc
  let custom := a.style.filter (numberStyles.contains ·)
  let start ← startOf a items
  return { cls := custom.getD (classFromDepth d), type := (custom.bind typeFromClass).getD (typeFromDepth d), start, reversed := a.reversed }

/-- `marker.callout_num().unwrap_or(…)` (`asciidoctor_html.rs:706`, `ast/src/list.rs:106-111`) -/
def calloutNum (auto : Nat) : Lists.Marker → Nat
  | .callout (some n) => n
  | _ => auto

/-- `enter_list_item_principal` (`asciidoctor_html.rs:700-715`), `render_checklist_item` (`1638-1650`) -/
def mark (icons : Images.IconMode) (v : Variant) (marker : Lists.Marker) (check : Option Bool) (s : St) : Option (Out × St) :=
  match v with
  | .description => some (.item, s)
  | .callout =>
    if icons = .text then some (.item, s)
    else do
      let n := calloutNum s.conum marker
      let next ← succ8 n
      return (.callout n, { s with conum := next })
  | _ => match check with
    | some checked => some (.box (s.stack.head? = some true) checked, s)
    | none => some (.item, s)

/-- whether an item has a check box: `is_checklist` (`ast/src/list.rs:47-49`) -/
def Item.checked : Item → Bool | .mk _ c _ => c.isSome

mutual
/-- a list with `n` lists around it in the document; the parser counts them in a `u8` (`parser/src/list_context.rs:38-40`,
`parser/src/tasks/parse_list.rs:18-19`). The calls are `enter_…_list` and `exit_…_list`, `asciidoctor_html.rs:534-626`, `685-697`. -/
def run (icons : Images.IconMode) (n : Nat) : Lst → St → Option (List Out × St)
  | .mk v a items, s =>
    match v with
    | .ordered => do
      let o ← openOrdered ((n + 1) % 256) s.desc a items
      let (out, s) ← runItems icons (n + 1) .ordered items { s with stack := false :: s.stack }
      return (.ol o :: out ++ [.close], { s with stack := s.stack.tail })
    | .unordered => do
      let (out, s) ← runItems icons (n + 1) .unordered items { s with stack := a.interactive :: s.stack }
      return (.ul (a.style.filter (markerStyles.contains ·)) (items.any Item.checked) :: out ++ [.close], { s with stack := s.stack.tail })
    | .callout => do
      let (out, s) ← runItems icons (n + 1) .callout items { s with conum := 1 }
      return (.callouts :: out ++ [.close], s)
    | .description => do
      let d ← succ8 s.desc
      let (out, s) ← runItems icons (n + 1) .description items { s with desc := d }
      let d ← sub8 s.desc 1
      return (.terms :: out ++ [.close], { s with desc := d })
/-- the items of a list -/
def runItems (icons : Images.IconMode) (n : Nat) (v : Variant) : List Item → St → Option (List Out × St)
  | [], s => some ([], s)
  | i :: is, s => do
    let (o1, s) ← runItem icons n v i s
    let (o2, s) ← runItems icons n v is s
    return (o1 ++ o2, s)
/-- an item, and the lists in it -/
def runItem (icons : Images.IconMode) (n : Nat) (v : Variant) : Item → St → Option (List Out × St)
  | .mk m c inner, s => do
    let (o, s) ← mark icons v m c s
    let (out, s) ← runLsts icons n inner s
    return (o :: out, s)
/-- lists one after another -/
def runLsts (icons : Images.IconMode) (n : Nat) : List Lst → St → Option (List Out × St)
  | [], s => some ([], s)
  | l :: ls, s => do
    let (o1, s) ← run icons n l s
    let (o2, s) ← runLsts icons n ls s
    return (o1 ++ o2, s)
end

/-- the lists of a document -/
def shown (icons : Images.IconMode) (ls : List Lst) : Option (List Out) := (runLsts icons 0 ls {}).map Prod.fst

/-- `num_str!` of a number -/
def numStr (n : Nat) : Str := (Nat.repr n).toList

/-- the text of the `ol` tag (`backend.rs:586-610`) -/
def olTag (o : Ol) : Str :=
  "<ol class=\"".toList ++ o.cls ++ ['"'] ++
    (if o.type ≠ "1".toList then " type=\"".toList ++ o.type ++ ['"'] else []) ++
    (match o.start with
      | some (.text s) => " start=\"".toList ++ s ++ ['"']
      | some (.num n) => " start=\"".toList ++ numStr n ++ ['"']
      | none => []) ++
    (if o.reversed then " reversed>".toList else ['>'])

end Verif.ListMarks

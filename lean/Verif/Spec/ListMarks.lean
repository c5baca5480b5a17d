import Verif.Model.ListMarks
/-!
What the lists of a document should be marked with, from the lists around them only: no state is passed along.
-/
namespace Verif.ListMarks
open Verif.OpenTag

/-- the five kinds of numbers: the class, and the letter HTML has for them -/
def kinds : List (Str × Str) :=
  [("arabic".toList, "1".toList), ("loweralpha".toList, "a".toList), ("lowerroman".toList, "i".toList),
    ("upperalpha".toList, "A".toList), ("upperroman".toList, "I".toList)]

/-- the kind for a list that is the `d`-th of the lists in each other, from 1 -/
def kindAt (d : Nat) : Str × Str := kinds.getD (min (d - 1) 4) ("upperroman".toList, "I".toList)

/-- the kinds of numbers without a letter in HTML -/
def letterless : List Str := ["decimal".toList, "lowergreek".toList]

/-- the markers that a list without numbers can be asked to have -/
def bullets : List Str := ["square", "circle", "disc", "none", "no-bullet", "unstyled"].map String.toList

/-- the kind of numbers of a list: the one asked for or the one at its depth. With kinds that have no letter, the letter is that of
the depth. -/
def kindOf (d : Nat) (asked : Option Str) : Str × Str :=
  match asked.bind (fun s => kinds.find? (·.1 = s)) with
  | some k => k
  | none => ((asked.filter (letterless.contains ·)).getD (kindAt d).1, (kindAt d).2)

/-- the number the first item is written with -/
def written1 : List Item → Option Nat
  | .mk (.digits n) _ _ :: _ => some n
  | _ => none

/-- the `ol` element of a list -/
def olOf (d : Nat) (a : ListAttrs) (items : List Item) : Ol where
  cls := (kindOf d a.style).1
  type := (kindOf d a.style).2
  start := match a.start with
    | some s => some (.text s)
    | none => (written1 items).bind fun n => if n = 1 then none else some (.num n)
  reversed := a.reversed

/-- the number of an item of a list of callouts: the one it is written with, or the one after that of the item before -/
def numberOf (next : Nat) : Lists.Marker → Nat
  | .callout (some n) => n
  | _ => next

/-- the mark of an item of a list -/
def markOf (icons : Images.IconMode) (v : Variant) (interactive : Bool) (next : Nat) (m : Lists.Marker) (check : Option Bool) : Out :=
  match v with
  | .description => .item
  | .callout => if icons = .text then .item else .callout (numberOf next m)
  | _ => match check with
    | some checked => .box interactive checked
    | none => .item

mutual
/-- what a list shows with `around` lists around it, not counting lists of descriptions -/
def listShows (icons : Images.IconMode) (around : Nat) : Lst → List Out
  | .mk .ordered a items => .ol (olOf (around + 1) a items) :: itemsShow icons (around + 1) .ordered false 0 items ++ [.close]
  | .mk .unordered a items =>
    .ul (a.style.filter (bullets.contains ·)) (items.any Item.checked) ::
      itemsShow icons (around + 1) .unordered a.interactive 0 items ++ [.close]
  | .mk .callout _ items => .callouts :: itemsShow icons (around + 1) .callout false 1 items ++ [.close]
  | .mk .description _ items => .terms :: itemsShow icons around .description false 0 items ++ [.close]
/-- its items; `next` is the number of the next item of a list of callouts -/
def itemsShow (icons : Images.IconMode) (around : Nat) (v : Variant) (interactive : Bool) (next : Nat) : List Item → List Out
  | [] => []
  | i :: is => itemShows icons around v interactive next i ++ itemsShow icons around v interactive (numberOf next i.marker + 1) is
/-- an item, and the lists in it -/
def itemShows (icons : Images.IconMode) (around : Nat) (v : Variant) (interactive : Bool) (next : Nat) : Item → List Out
  | .mk m c inner => markOf icons v interactive next m c :: listsShow icons around inner
/-- lists one after another -/
def listsShow (icons : Images.IconMode) (around : Nat) : List Lst → List Out
  | [] => []
  | l :: ls => listShows icons around l ++ listsShow icons around ls
end

mutual
/-- how many lists are in each other -/
def height : Lst → Nat
  | .mk _ _ items => itemsHeight items + 1
def itemsHeight : List Item → Nat
  | [] => 0
  | i :: is => max (itemHeight i) (itemsHeight is)
def itemHeight : Item → Nat
  | .mk _ _ inner => listsHeight inner
def listsHeight : List Lst → Nat
  | [] => 0
  | l :: ls => max (height l) (listsHeight ls)
end

mutual
/-- whether a list of callouts is among lists -/
def calls : Lst → Bool
  | .mk v _ items => v = .callout || itemsCall items
def itemsCall : List Item → Bool
  | [] => false
  | i :: is => itemCalls i || itemsCall is
def itemCalls : Item → Bool
  | .mk _ _ inner => listsCall inner
def listsCall : List Lst → Bool
  | [] => false
  | l :: ls => calls l || listsCall ls
end

mutual
/-- lists as the parser makes them, that have items, and no list of callouts in a list of callouts -/
def regular : Lst → Bool
  | .mk v _ items => !items.isEmpty && !(v = .callout && itemsCall items) && itemsRegular items
def itemsRegular : List Item → Bool
  | [] => true
  | i :: is => itemRegular i && itemsRegular is
def itemRegular : Item → Bool
  | .mk _ _ inner => listsRegular inner
def listsRegular : List Lst → Bool
  | [] => true
  | l :: ls => regular l && listsRegular ls
end

/-- the numbers browsers show for the `n` items of an `ol` element that is not given a start by an attribute list -/
def labels (o : Ol) (n : Nat) : List Int :=
  let first : Int := match o.start with | some (.num k) => k | _ => if o.reversed then n else 1
  (List.range n).map fun (k : Nat) => if o.reversed then first - k else first + k

end Verif.ListMarks

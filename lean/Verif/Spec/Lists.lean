import Verif.Model.Lists
/-! What lists are, independently of how they are parsed. -/
namespace Verif.Lists

/-- Items of the same list: equal markers, where the numbers of `1.` and `<1>` do not matter. -/
def SameKind : Marker → Marker → Prop
  | .digits _, .digits _ => True
  | .callout _, .callout _ => True
  | a, b => a = b

/-- An item as it is written: a marker, the text after it, and the lines of text that follow. -/
structure Row where
  marker : Marker
  text : Text
  more : List Text
deriving DecidableEq

def Row.write (r : Row) : List Ln := .item r.marker r.text :: r.more.map .text

/-- A part of a document of paragraphs and lists: either a paragraph, which begins with text and goes on to the next
blank line, or items, with blank lines between some of them. -/
inductive Piece where
  | para (first : Text) (rest : List Ln)
  | items (chunks : List (List Row))

def Piece.write : Piece → List (List Ln)
  | .para first rest => [.text first :: rest]
  | .items chunks => chunks.map fun rows => rows.flatMap Row.write

/-- only items and text: no attribute lists, no list continuations, no delimiters, no description lists -/
def Ln.plain : Ln → Prop
  | .item _ _ => True
  | .text _ => True
  | _ => False

def Piece.ok : Piece → Prop
  | .para _ rest => ∀ l ∈ rest, l.plain
  | .items chunks => chunks ≠ [] ∧ ∀ rows ∈ chunks, rows ≠ []

/-- every list of the document is one piece -/
def Separated : List Piece → Prop
  | .items _ :: .items _ :: _ => False
  | _ :: ps => Separated ps
  | [] => True

mutual
/-- `WellNested opened m b`: `b` is a list of items of the kind of `m` inside the lists `opened`; each of its items
contains at most one further list, whose items are of a kind that no open list has -/
def WellNested (opened : List Marker) (m : Marker) : Block → Prop
  | .list depth items => depth = (opened.length + 1) % 256 ∧ items ≠ [] ∧ ItemsNested opened m items
  | .para _ => False
  | .exampleBlock _ => False
def ItemsNested (opened : List Marker) (m : Marker) : List Item → Prop
  | [] => True
  | i :: is => ItemNested opened m i ∧ ItemsNested opened m is
def ItemNested (opened : List Marker) (m : Marker) : Item → Prop
  | .mk m' _ more extra desc blocks =>
    SameKind m m' ∧ (∀ l ∈ more, ∃ t, l = .text t) ∧ extra = [] ∧ desc = none ∧ NestedList (m :: opened) blocks
def NestedList (opened : List Marker) : List Block → Prop
  | [] => True
  | b :: bs => bs = [] ∧ ∃ m, (∀ x ∈ opened, ¬ SameKind x m) ∧ WellNested opened m b
end

/-- the text of a line of text -/
def Ln.asText : Ln → List Text
  | .text t => [t]
  | _ => []

mutual
/-- the items of a list and of the lists nested in it, in reading order -/
def Block.rows : Block → List Row
  | .list _ items => itemsRows items
  | .para _ => []
  | .exampleBlock _ => []
def itemsRows : List Item → List Row
  | [] => []
  | i :: is => i.rows ++ itemsRows is
def Item.rows : Item → List Row
  | .mk m t more _ _ blocks => ⟨m, t, more.flatMap Ln.asText⟩ :: blocksRows blocks
def blocksRows : List Block → List Row
  | [] => []
  | b :: bs => b.rows ++ blocksRows bs
end

/-- what a piece should become -/
def Piece.becomes : Piece → Block → Prop
  | .para first rest, b => b = .para (.text first :: rest)
  | .items chunks, b => b.rows = chunks.flatten ∧ ∃ m, WellNested [] m b

/-- pieces and blocks, one by one -/
inductive Become : List Piece → List Block → Prop where
  | nil : Become [] []
  | cons {p ps b bs} : p.becomes b → Become ps bs → Become (p :: ps) (b :: bs)

/-! ### nothing is lost -/

/-- the texts of a line -/
def Ln.texts : Ln → List Text
  | .item _ t => [t]
  | .term _ t r => t :: r.toList
  | .text t => [t]
  | .plusText t => [t]
  | .plus => []
  | .attrs _ => []
  | .delim => []

/-- no lone `+` between an opening delimiter and the delimiter that closes the block -/
def noPlusInside : Bool → List Ln → Prop
  | _, [] => True
  | inside, .delim :: ls => noPlusInside (!inside) ls
  | inside, .plus :: ls => inside = false ∧ noPlusInside inside ls
  | inside, _ :: ls => noPlusInside inside ls

mutual
def Block.texts : Block → List Text
  | .para ls => ls.flatMap Ln.texts
  | .list _ items => itemsTexts items
  | .exampleBlock bs => blocksTexts bs
def itemsTexts : List Item → List Text
  | [] => []
  | i :: is => i.texts ++ itemsTexts is
def Item.texts : Item → List Text
  | .mk _ t more extra desc blocks => t :: more.flatMap Ln.texts ++ extra ++ descTexts desc ++ blocksTexts blocks
def descTexts : Option Block → List Text
  | none => []
  | some b => b.texts
def blocksTexts : List Block → List Text
  | [] => []
  | b :: bs => b.texts ++ blocksTexts bs
end

end Verif.Lists

import Verif.Model.Columns
/-! What a column specification looks like, and what it means; what shares of the width should add up to. -/
namespace Verif.Columns

/-- a width as an author writes it; the numbers as written -/
inductive WrittenWidth | parts (digits : List Char) | percent (digits : List Char) | auto

/-- one column specification as an author writes it: `3*>.^20%m` -/
structure Written where
  multiplier : Option (List Char) := none
  h : Option HAlign := none
  v : Option VAlign := none
  width : Option WrittenWidth := none
  style : Option Style := none

def hChar : HAlign → Char | .left => '<' | .center => '^' | .right => '>'
def vChar : VAlign → Char | .top => '<' | .middle => '^' | .bottom => '>'
def styleChar : Style → Char
  | .asciidoc => 'a' | .default => 'd' | .emphasis => 'e' | .header => 'h' | .literal => 'l' | .monospace => 'm' | .strong => 's'

def isNumber (ds : List Char) : Prop := ds ≠ [] ∧ ∀ c ∈ ds, c.isDigit = true

def WrittenWidth.ok : WrittenWidth → Prop
  | .parts ds | .percent ds => isNumber ds
  | .auto => True

/-- the numbers are numbers -/
def Written.ok (c : Written) : Prop :=
  (∀ ds, c.multiplier = some ds → isNumber ds) ∧ (∀ w, c.width = some w → w.ok)

def WrittenWidth.text : WrittenWidth → List Char
  | .parts ds => ds | .percent ds => ds ++ ['%'] | .auto => ['~']

def Written.text (c : Written) : List Char :=
  (match c.multiplier with | some ds => ds ++ ['*'] | none => []) ++
  (match c.h with | some a => [hChar a] | none => []) ++
  (match c.v with | some a => ['.', vChar a] | none => []) ++
  (match c.width with | some w => w.text | none => []) ++
  (match c.style with | some s => [styleChar s] | none => [])

def valueOf (ds : List Char) : Nat := Nat.ofDigitChars 10 ds 0

/-- the column that is meant -/
def Written.column (c : Written) : ColSpec where
  width := match c.width with
    | none => .proportional 1
    | some (.parts ds) => .proportional (valueOf ds)
    | some (.percent ds) => .percentage (valueOf ds)
    | some .auto => .auto
  hAlign := c.h.getD .left
  vAlign := c.v.getD .top
  style := c.style.getD .default

/-- how many columns are meant -/
def Written.times (c : Written) : Nat := match c.multiplier with | some ds => valueOf ds | none => 1

/-- the numbers are in range: at least one column, at most as many as an `i32` counts; widths are at most 255 -/
def Written.inRange (c : Written) : Prop :=
  1 ≤ c.times ∧ c.times ≤ 2147483647 ∧
  (∀ ds, (c.width = some (.parts ds) ∨ c.width = some (.percent ds)) → valueOf ds ≤ 255)

/-- a specification with white space around it -/
structure Padded where
  before : List Char := []
  written : Written := {}
  after : List Char := []

def Padded.ok (p : Padded) : Prop := (∀ c ∈ p.before, isWs c = true) ∧ (∀ c ∈ p.after, isWs c = true) ∧ p.written.ok
def Padded.text (p : Padded) : List Char := p.before ++ p.written.text ++ p.after

/-- the `cols` attribute: specifications with separators (`,` or `;`) between them -/
def colsText (first : Padded) : List (Bool × Padded) → List Char
  | [] => first.text
  | (semicolon, next) :: rest => first.text ++ (if semicolon then ';' else ',') :: colsText next rest

/-- a share of the width -/
def Share.value : Share → Option Rat | .percentage x | .auto x => x

/-- the sum of the shares, if all are numbers -/
def total : List Share → Option Rat
  | [] => some 0
  | s :: ss => s.value.bind fun x => (total ss).map fun t => x + t

/-- the sum of the widths that are numbers -/
def widthSum : List Width → Nat
  | [] => 0
  | .auto :: ws => widthSum ws
  | .proportional n :: ws | .percentage n :: ws => n + widthSum ws

end Verif.Columns

/-! Model of table column specifications (`parser/src/tasks/table/parse_table_spec.rs:16-88`) and of column widths
(`ast/src/col_widths.rs`). Text is a list of characters.

Simplifications: the regular expression's `\d` and `\s`, and `str::trim`, also accept digits and white space outside of
ASCII; here they do not. `f32` numbers are rational numbers without rounding; `none` is NaN or an infinity. -/
namespace Verif.Columns

/-- `ast/src/table.rs:5-11` — `HorizontalAlignment` -/
inductive HAlign | left | center | right
deriving DecidableEq, Repr

/-- `ast/src/table.rs:13-19` — `VerticalAlignment` -/
inductive VAlign | top | middle | bottom
deriving DecidableEq, Repr

/-- `ast/src/table.rs:58-68` — `CellContentStyle` -/
inductive Style | asciidoc | default | emphasis | header | literal | monospace | strong
deriving DecidableEq, Repr

/-- `ast/src/table.rs:70-75` — `ColWidth`; the numbers are `u8` -/
inductive Width | proportional (n : Nat) | percentage (n : Nat) | auto
deriving DecidableEq, Repr

/-- `ast/src/table.rs:77-83,103-112` — `ColSpec` with its default -/
structure ColSpec where
  width : Width := .proportional 1
  hAlign : HAlign := .left
  vAlign : VAlign := .top
  style : Style := .default
deriving DecidableEq, Repr

def isWs (c : Char) : Bool := c = ' ' || c = '\t' || c = '\n' || c = '\r' || c = '\x0b' || c = '\x0c'

/-- `str::parse` for a run of digits and an unsigned or signed number type with this greatest value -/
def parseNumber (greatest : Nat) (digits : List Char) : Option Nat :=
  let n := Nat.ofDigitChars 10 digits 0
  if digits ≠ [] ∧ n ≤ greatest then some n else none

/-- `ast/src/table.rs:177-187` — `HorizontalAlignment::from_str` -/
def hAlignOf : Char → Option HAlign
  | '<' => some .left | '^' => some .center | '>' => some .right | _ => none

/-- `ast/src/table.rs:189-199` — `VerticalAlignment::from_str` -/
def vAlignOf : Char → Option VAlign
  | '<' => some .top | '^' => some .middle | '>' => some .bottom | _ => none

/-- `ast/src/table.rs:221-238` — `CellContentStyle::from_str`, for the characters that `COLSPEC_RE` lets through -/
def styleOf : Char → Option Style
  | 'a' => some .asciidoc | 'd' => some .default | 'e' => some .emphasis | 'h' => some .header
  | 'l' => some .literal | 'm' => some .monospace | 's' => some .strong | _ => none

/-! `COLSPEC_RE`, `parse_table_spec.rs:16-20`, group by group. No group can be skipped or shortened where it matches: no
later part of the expression accepts the characters it would leave. So the leftmost-first match is the greedy one. -/

/-- `(?:(\d+)\*)?` -/
def takeMultiplier (l : List Char) : Option (List Char) × List Char :=
  match l.takeWhile Char.isDigit, l.dropWhile Char.isDigit with
  | d :: ds, '*' :: rest => (some (d :: ds), rest)
  | _, _ => (none, l)

/-- `([<^>])?` -/
def takeH (l : List Char) : Option HAlign × List Char :=
  match l with
  | c :: rest => match hAlignOf c with | some a => (some a, rest) | none => (none, l)
  | [] => (none, l)

/-- `(?:\.([<^>]))?` -/
def takeV (l : List Char) : Option VAlign × List Char :=
  match l with
  | '.' :: c :: rest => match vAlignOf c with | some a => (some a, rest) | none => (none, l)
  | _ => (none, l)

/-- what group 4 matches: digits, digits and `%`, or `~` -/
inductive WidthText | digits (ds : List Char) | percent (ds : List Char) | tilde
deriving DecidableEq, Repr

/-- `((?:\d+%?)|~)?` -/
def takeWidth (l : List Char) : Option WidthText × List Char :=
  match l.takeWhile Char.isDigit, l.dropWhile Char.isDigit with
  | d :: ds, '%' :: rest => (some (.percent (d :: ds)), rest)
  | d :: ds, rest => (some (.digits (d :: ds)), rest)
  | [], '~' :: rest => (some .tilde, rest)
  | [], _ => (none, l)

/-- `(a|d|e|h|l|m|s)?` -/
def takeStyle (l : List Char) : Option Style × List Char :=
  match l with
  | c :: rest => match styleOf c with | some a => (some a, rest) | none => (none, l)
  | [] => (none, l)

/-- the captured groups -/
structure Captures where
  multiplier : Option (List Char)
  hAlign : Option HAlign
  vAlign : Option VAlign
  width : Option WidthText
  style : Option Style
deriving DecidableEq, Repr

/-- `COLSPEC_RE.captures` -/
def captures (l : List Char) : Option Captures :=
  let (m, l) := takeMultiplier (l.dropWhile isWs)
  let (h, l) := takeH l
  let (v, l) := takeV l
  let (w, l) := takeWidth l
  let (s, l) := takeStyle l
  if l.all isWs then some ⟨m, h, v, w, s⟩ else none

/-- `parse_table_spec.rs:44-52` -/
def widthOf : Option WidthText → Width
  | none => .proportional 1
  | some .tilde => .auto
  | some (.percent ds) => .percentage ((parseNumber 255 ds).getD 1)
  | some (.digits ds) => .proportional ((parseNumber 255 ds).getD 1)

/-- the greatest `i32`: the type of the numbers of columns, which nothing but a range of integers fixes -/
def i32Max : Nat := 2147483647

/-- `parse_table_spec.rs:22-66` — `parse_col_spec`: the columns that one part of the attribute stands for -/
def parseColSpec (part : List Char) : List ColSpec :=
  if part.isEmpty then [{}]
  else match captures part with
    | none => [{}]
    | some c =>
      let spec : ColSpec := ⟨widthOf c.width, c.hAlign.getD .left, c.vAlign.getD .top, c.style.getD .default⟩
      let more := match c.multiplier with
        | none => 0
        | some ds => (parseNumber i32Max ds).getD 1 - 1
      List.replicate more spec ++ [spec]

/-- `str::split([';', ','])` -/
def splitParts : List Char → List (List Char)
  | [] => [[]]
  | c :: cs =>
    if c = ';' ∨ c = ',' then [] :: splitParts cs
    else match splitParts cs with
      | p :: ps => (c :: p) :: ps
      | [] => [[c]]

/-- `parse_table_spec.rs:69-88` — `parse_col_specs` -/
def parseColSpecs (text : List Char) : List ColSpec :=
  if text.all isWs then []
  else if text.all Char.isDigit then List.replicate ((parseNumber i32Max text).getD 1) {}
  else (splitParts text).flatMap parseColSpec

/-! ### widths -/

/-- `ast/src/col_widths.rs:28-32` — `DistributedColWidth` -/
inductive Share | percentage (x : Option Rat) | auto (x : Option Rat)
deriving DecidableEq

/-- division of `f32` -/
def div? (a b : Rat) : Option Rat := if b = 0 then none else some (a / b)

/-- `col_widths.rs:40-49` — `width_divisor`: the sum of the widths, if any column has one. The outer `none`: the sum is
no `u8`, and the program stops (overflow checks are on in debug builds). -/
def divisor : List Width → Option Nat → Option (Option Nat)
  | [], sum => some sum
  | .auto :: ws, sum => divisor ws sum
  | .proportional n :: ws, sum | .percentage n :: ws, sum =>
    match sum with
    | none => divisor ws (some n)
    | some s => if s + n ≤ 255 then divisor ws (some (s + n)) else none

/-- `col_widths.rs:47` — `num_autowidth` -/
def numAuto (ws : List Width) : Nat := ws.count .auto

/-- `col_widths.rs:51-60` — `autowidth`, and `width_divisor` afterwards -/
def autoWidth (d : Option Nat) (k : Nat) : Option Rat × Option Nat :=
  match d with
  | some w =>
    if (k > 0 ∧ w > 100) ∨ k = 0 then (some 0, some w)
    else (div? (100 - w) k, some 100)
  | none => (div? 100 k, none)

/-- `col_widths.rs:62-67`; the `unwrap` cannot fail, see `divisor_some` -/
def shareOf (a : Option Rat) (d : Nat) : Width → Share
  | .auto => .auto a
  | .proportional n | .percentage n => .percentage (div? (n * 100) d)

/-- `col_widths.rs:39-68` — `distribute` -/
def distribute (ws : List Width) : Option (List Share) :=
  (divisor ws none).bind fun d =>
    let (a, d) := autoWidth d (numAuto ws)
    some (ws.map (shareOf a (d.getD 0)))

end Verif.Columns

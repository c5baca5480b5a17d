import Verif.Model.Lexer
import Verif.Model.Columns
/-! Model of the table parser: `parser/src/tasks/table/`.

Simplifications: a token has no location, a lexeme is a list of characters; the content of a cell is its tokens (they are
not parsed any further, and the parser of an AsciiDoc cell always succeeds: in strict mode its first diagnostic ends the
parse, see `Verif.Model.Diagnostics`); diagnostics are left out. A step of a `while` loop takes one unit of fuel. -/
namespace Verif.Tables
open Verif Columns

/-- `parser/src/token.rs:6-13` — `Token`; `attr`: `attr_replacement` -/
structure Tok where
  kind : TokenKind
  lexeme : List Char
  attr : Bool := false
deriving DecidableEq, Repr

/-- `token.rs:200-202` — `is_whitespaceish` -/
def Tok.ws (t : Tok) : Bool := t.kind = .Whitespace || t.kind = .Newline

/-- `ast/src/table.rs:114-122` — `CellSpec` -/
structure CellSpec where
  duplication : Option Nat := none
  colSpan : Option Nat := none
  rowSpan : Option Nat := none
  hAlign : Option HAlign := none
  vAlign : Option VAlign := none
  style : Option Style := none
deriving DecidableEq, Repr

/-- `ast/src/table.rs:124-131` — `Cell`; the style stands for the variant of the content -/
structure Cell where
  text : List Tok
  style : Style
  colSpan : Nat
  rowSpan : Nat
  hAlign : HAlign
  vAlign : VAlign
deriving DecidableEq, Repr

/-- `ast/src/table.rs:134-149` — `Cell::new` -/
def Cell.new (text : List Tok) (style : Style) (spec : CellSpec) (col : Option ColSpec) : Cell where
  text := text
  style := style
  colSpan := spec.colSpan.getD 1
  rowSpan := spec.rowSpan.getD 1
  hAlign := spec.hAlign.getD (match col with | some c => c.hAlign | none => .left)
  vAlign := spec.vAlign.getD (match col with | some c => c.vAlign | none => .top)

/-! ### the start of a cell: `parse_table_spec.rs:90-284`

Each part drops the tokens it reads, where the code moves a cursor. -/

/-- `token.drop_leading_bytes` (`token.rs:147-166`), in characters -/
def dropChars (n : Nat) : List Tok → List Tok
  | t :: ts => { t with kind := .Word, lexeme := t.lexeme.drop n } :: ts
  | [] => []

/-- `parse_table_spec.rs:207-214` — `parse_duplication_factor` -/
def readDuplication (spec : CellSpec) : List Tok → CellSpec × List Tok
  | ts@(a :: b :: rest) =>
    if a.kind = .Digits ∧ b.kind = .Star then
      match parseNumber 255 a.lexeme with
      | some n => ({ spec with duplication := some n }, rest)
      | none => (spec, ts)
    else (spec, ts)
  | ts => (spec, ts)

/-- `t.is_kind_len(Dots, 1)` -/
def Tok.dot (t : Tok) : Bool := t.kind = .Dots && t.lexeme.length = 1

/-- `parse_table_spec.rs:216-255` — `parse_span_factor` -/
def readSpans (spec : CellSpec) (ts : List Tok) : CellSpec × List Tok :=
  match ts with
  | a :: b :: rest =>
    if a.kind = .Digits ∧ b.kind = .Plus then
      match parseNumber 255 a.lexeme with
      | some n => ({ spec with colSpan := some n }, rest)
      | none => (spec, ts)
    else
      match rest with
      | c :: rest =>
        if a.kind = .Dots ∧ b.kind = .Digits ∧ c.kind = .Plus then
          match a.dot, parseNumber 255 b.lexeme with
          | true, some n => ({ spec with rowSpan := some n }, rest)
          | _, _ => (spec, ts)
        else
          match rest with
          | d :: rest =>
            if a.kind = .Digits ∧ b.kind = .Dots ∧ c.kind = .Digits ∧ d.kind = .Plus then
              match b.dot, parseNumber 255 a.lexeme, parseNumber 255 c.lexeme with
              | true, some n, some m => ({ spec with colSpan := some n, rowSpan := some m }, rest)
              | _, _, _ => (spec, ts)
            else (spec, ts)
          | [] => (spec, ts)
      | [] => (spec, ts)
  | _ => (spec, ts)

/-- `parse_table_spec.rs:257-272` — `parse_h_align` -/
def readH (spec : CellSpec) (ts : List Tok) : CellSpec × List Tok :=
  match ts with
  | t :: rest =>
    if t.kind = .LessThan then ({ spec with hAlign := some .left }, rest)
    else if t.kind = .GreaterThan then ({ spec with hAlign := some .right }, rest)
    else if t.kind = .Caret then ({ spec with hAlign := some .center }, rest)
    else if t.kind = .CalloutNumber ∧ t.lexeme = ['<', '.', '>'] then
      ({ spec with hAlign := some .left, vAlign := some .bottom }, rest)
    else (spec, ts)
  | [] => (spec, ts)

/-- `parse_table_spec.rs:274-285` — `parse_v_align` -/
def readV (spec : CellSpec) (ts : List Tok) : CellSpec × List Tok :=
  match ts with
  | a :: b :: rest =>
    if a.dot then
      if b.kind = .GreaterThan then ({ spec with vAlign := some .bottom }, rest)
      else if b.kind = .LessThan then ({ spec with vAlign := some .top }, rest)
      else if b.kind = .Caret then ({ spec with vAlign := some .middle }, rest)
      else (spec, ts)
    else (spec, ts)
  | _ => (spec, ts)

/-- `ast/src/table.rs:221-238` — `CellContentStyle::from_str`; `v` is the default style -/
def cellStyleOf (c : Char) : Option Style := if c = 'v' then some .default else styleOf c

/-- `parse_table_spec.rs:183-205` — `parse_style`; the flag says that the letter is the first of a longer word, which is
not dropped -/
def readStyle (spec : CellSpec) (ts : List Tok) : CellSpec × Bool × List Tok :=
  match ts with
  | t :: rest =>
    if t.kind = .Word then
      match t.lexeme with
      | c :: cs =>
        match cellStyleOf c with
        | some s => if cs.isEmpty then ({ spec with style := some s }, false, rest) else ({ spec with style := some s }, true, ts)
        | none => (spec, false, ts)
      | [] => (spec, false, ts)
    else (spec, false, ts)
  | [] => (spec, false, ts)

/-- `parse_table_spec.rs:126-141`: only such tokens start a specification -/
def canStart (t : Tok) : Bool :=
  if t.kind = .Word then
    match t.lexeme with
    | c :: _ => (cellStyleOf c).isSome
    | [] => false
  else t.kind = .Digits || t.kind = .Dots || t.kind = .LessThan || t.kind = .GreaterThan || t.kind = .Caret || t.kind = .CalloutNumber

/-- `parse_table_spec.rs:143-152` -/
def readSpec (ts : List Tok) : CellSpec × Bool × List Tok :=
  let (spec, ts) := readDuplication {} ts
  let (spec, ts) := readSpans spec ts
  let (spec, ts) := readH spec ts
  let (spec, ts) := readV spec ts
  readStyle spec ts

/-- `parse_table_spec.rs:154-181`: what must follow the specification; `withinWord`: `style_within_word` -/
def readSeparator (sep : Char) (spec : CellSpec) (withinWord : Bool) : List Tok → Option (CellSpec × List Tok)
  | t :: rest =>
    if withinWord then
      match t.lexeme with
      | _ :: c :: cs =>
        if c = sep then
          if cs.isEmpty ∧ sep.toNat < 128 then some (spec, rest) else some (spec, dropChars 2 (t :: rest))
        else none
      | _ => none
    else if t.lexeme = [sep] then some (spec, rest) else none
  | [] => none

/-- `parse_table_spec.rs:90-181` — `peek_cell_start` and `consume_cell_start`: the specification, and the tokens after the
separator -/
def cellStart (sep : Char) (ts : List Tok) : Option (CellSpec × List Tok) :=
  match ts with
  | [] => none
  | t :: rest =>
    if t.attr then none
    else if t.lexeme.head? = some sep then
      if t.lexeme.length = 1 then some ({}, rest) else some ({}, dropChars 1 ts)
    else if !canStart t then none
    else
      let (spec, withinWord, left) := readSpec ts
      if left.length = ts.length then none else readSeparator sep spec withinWord left

/-- `mod.rs:100-126` — `consume_splitting` -/
def consumeSplitting (embedded : Option Char) (ts : List Tok) : Option (Tok × List Tok) :=
  match ts with
  | [] => none
  | t :: rest =>
    match embedded with
    | none => some (t, rest)
    | some sep =>
      if t.kind = .Word ∧ sep ∈ t.lexeme then
        let before := t.lexeme.takeWhile (· ≠ sep)
        some (⟨.Word, before, false⟩, dropChars before.length ts)
      else some (t, rest)

/-! ### the state of the table parser: `context.rs` -/

/-- `context.rs:27-33` — `HeaderRow` -/
inductive HeaderRow | unknown | foundImplicit | foundNone | explicitlySet | explicitlyUnset
deriving DecidableEq, Repr

/-- `context.rs:36-38` — `known_to_exist` -/
def HeaderRow.known (h : HeaderRow) : Bool := h = .foundImplicit || h = .explicitlySet

/-- `context.rs:53-57` — `DsvLastConsumed` -/
inductive LastConsumed | delimiter | newline | other
deriving DecidableEq, Repr

/-- `mod.rs:13-17` — `DataFormat` -/
inductive Format | prefixed | csv | delimited
deriving DecidableEq, Repr

/-- the parts of `TableContext` (`context.rs:7-24`) that do not change -/
structure Config where
  format : Format
  sep : Char
  colSpecs : List ColSpec := []
deriving DecidableEq, Repr

/-- `mod.rs:36-41` — `embeddable_separator` -/
def Config.embedded (c : Config) : Option Char :=
  if c.sep = ':' ∨ c.sep = ';' ∨ c.sep = '|' ∨ c.sep = ',' then none else some c.sep

/-- `mod.rs:43-51` — `separator_token_kind` -/
def Config.sepKind (c : Config) : Option TokenKind :=
  if c.sep = ':' then some .Colon
  else if c.sep = ';' then some .SemiColon
  else if c.sep = '|' then some .Pipe
  else if c.sep = ',' then some .Comma
  else none

/-- the parts of `TableContext` that do. `reparse`: the tokens of `header_reparse_cells`; the hash set of phantom cells is a
list without repetitions. -/
structure St where
  numCols : Nat
  counting : Bool
  header : HeaderRow
  reparse : List (List Tok) := []
  phantoms : List (Nat × Nat) := []
  rowIdx : Nat := 0
  last : LastConsumed := .other
  spilled : List Cell := []
  headerRow : Option (List Cell) := none
  rows : List (List Cell) := []
deriving DecidableEq, Repr

/-- `HashSet::insert` -/
def insertPhantom (ps : List (Nat × Nat)) (p : Nat × Nat) : List (Nat × Nat) := if p ∈ ps then ps else ps ++ [p]

/-- `context.rs:64-73`: the positions that a cell covers besides its own -/
def covered (row col : Nat) (c : Cell) : List (Nat × Nat) :=
  (List.range c.rowSpan).flatMap fun r => (List.range c.colSpan).filterMap fun k =>
    if r = 0 ∧ k = 0 then none else some (row + r, col + k)

/-- `context.rs:60-75` — `add_phantom_cells` -/
def addPhantoms (s : St) (c : Cell) (col : Nat) : St :=
  { s with phantoms := (covered s.rowIdx col c).foldl insertPhantom s.phantoms }

/-- `context.rs:77-83` — `row_phantom_cells` -/
def rowPhantoms (s : St) : Nat := (s.phantoms.filter fun p => p.1 = s.rowIdx).length

/-! ### cells: `parse_table.rs:168-270` -/

/-- the tokens without the white space and the line ends at their end, and those, last one first -/
def trimEnd (ts : List Tok) : List Tok := (ts.reverse.dropWhile Tok.ws).reverse
def trimmed (ts : List Tok) : List Tok := ts.reverse.takeWhile Tok.ws

/-- `contains_seq(&[Kind(Newline); 2])` -/
def hasBlankLine : List Tok → Bool
  | a :: b :: rest => (a.kind = .Newline && b.kind = .Newline) || hasBlankLine (b :: rest)
  | _ => false

/-- `parse_table.rs:177-184` — the style of a cell -/
def styleFor (cfg : Config) (s : St) (spec : CellSpec) (col : Nat) : Style :=
  if s.header.known ∧ s.headerRow.isNone then .default
  else spec.style.getD (match cfg.colSpecs[col]? with | some c => c.style | none => .default)

/-- `parse_table.rs:193-198` — the last two tokens trimmed, that is, the first two of them in the text, are line ends -/
def endsInBlankLine (ws : List Tok) : Bool :=
  1 < ws.length && (ws.drop (ws.length - 2)).all (·.kind = .Newline)

/-- `parse_table.rs:186-204` — what a cell's text says about the header row -/
def headerAfter (cfg : Config) (s : St) (text : List Tok) : HeaderRow :=
  if s.header = .unknown ∧ cfg.format = .prefixed then
    if endsInBlankLine (trimmed text) then .foundImplicit
    else if hasBlankLine (trimEnd text) then .foundNone
    else .unknown
  else s.header

/-- `parse_table.rs:168-270` — `finish_cell`; the number is how often the cell is to be repeated -/
def finishCell (cfg : Config) (s : St) (spec : CellSpec) (text : List Tok) (col : Nat) : (Cell × Nat) × St :=
  let style := styleFor cfg s spec col
  let h := headerAfter cfg s text
  let found := s.header = .unknown ∧ cfg.format = .prefixed ∧ endsInBlankLine (trimmed text) = true
  let text := trimEnd text
  let reparse := if (style = .asciidoc ∨ style = .literal) ∧ (h = .unknown ∨ found) then s.reparse ++ [text] else s.reparse
  ((.new text style spec cfg.colSpecs[col]?, spec.duplication.getD 1), { s with header := h, reparse })

/-! ### rows, however cells are found -/

/-- `parse_table.rs:272-299` — `reparse_header_cells`; `none`: it takes a cell from an empty list, and the program stops -/
def reparseCells : List (List Tok) → List Cell → Option (List Cell × List (List Tok))
  | saved, [] => some ([], saved)
  | saved, c :: cs =>
    if c.style = .asciidoc ∨ c.style = .literal then
      match saved with
      | [] => none
      | t :: saved => (reparseCells saved cs).map fun (cs, saved) => ({ c with text := t, style := .default } :: cs, saved)
    else (reparseCells saved cs).map fun (cs, saved) => ({ c with style := .default } :: cs, saved)

/-- the header row, `parse_table.rs:129-132` and `156-160` -/
def setHeader (s : St) (row : List Cell) : Option St :=
  if s.header = .foundImplicit then
    (reparseCells s.reparse row).map fun (row, saved) => { s with headerRow := some row, reparse := saved }
  else some { s with headerRow := some row }

/-- the rest of both, `parse_table.rs:134-138` and `162-166` -/
def addRow (s : St) (row : List Cell) : St :=
  { s with rows := s.rows ++ [row], header := if s.header = .unknown then .foundNone else s.header }

/-- `parse_table.rs:119-140` — `push_table_row` -/
def pushRow (s : St) (row : List Cell) : Option St :=
  if s.rows.isEmpty ∧ s.headerRow.isNone ∧ s.header.known then setHeader s row else some (addRow s row)

/-- `parse_table.rs:142-166` — `finish_implicit_header_row`, without the column widths -/
def finishFirstRow (s : St) (cells : List Cell) : Option St :=
  if cells.isEmpty then some s
  else
    let s := { s with rowIdx := s.rowIdx + 1 }
    if s.header.known then setHeader s cells else some (addRow s cells)

/-! ### tables whose cells start with a separator: `parse_psv_table.rs` -/

/-- no cell has more tokens or characters to go through -/
def size (ts : List Tok) : Nat := (ts.map fun t => t.lexeme.length + 1).sum

/-- `parse_psv_table.rs:111-141` — the loop that collects the text of a cell: the text, whether a line ended in it, and the
tokens after it -/
def collect (cfg : Config) : Nat → List Tok → List Tok × Bool × List Tok
  | 0, ts => ([], false, ts)
  | fuel + 1, ts =>
    if (cellStart cfg.sep ts).isSome then ([], false, ts)
    else match consumeSplitting cfg.embedded ts with
      | none => ([], false, ts)
      | some (t, ts) =>
        if t.kind = .Backslash ∧ (cellStart cfg.sep ts).isSome then
          let (text, newline, rest) := collect cfg fuel (ts.drop 1)
          (ts.take 1 ++ text, newline, rest)
        else
          let (text, newline, rest) := collect cfg fuel ts
          (t :: text, t.kind = .Newline || newline, rest)

/-- `parse_psv_table.rs:75-142` — `parse_psv_table_cell`: the cell and how often it is repeated, if there is one more cell -/
def psvCell (cfg : Config) (col : Nat) : Nat → St → List Tok → Option (Cell × Nat) × St × List Tok
  | 0, s, ts => (none, s, ts)
  | fuel + 1, s, ts =>
    if ts.isEmpty then (none, s, ts)
    else
      let (spec, ts) := (cellStart cfg.sep ts).getD ({}, ts)
      let invalid := !s.counting && decide (s.numCols % 256 < spec.colSpan.getD 0)
      let ts := ts.dropWhile (·.kind = .Whitespace)
      let (text, newline, ts) := collect cfg (size ts) ts
      let s := { s with counting := s.counting && !newline }
      if invalid then psvCell cfg col fuel s ts
      else
        let (cell, s) := finishCell cfg s spec text col
        (some cell, s, ts)

/-- `parse_psv_table.rs:11-22` — the loop of `parse_psv_implicit_first_row` -/
def firstCells (cfg : Config) : Nat → St → List Tok → List Cell → List Cell × St × List Tok
  | 0, s, ts, cells => (cells, s, ts)
  | fuel + 1, s, ts, cells =>
    match psvCell cfg cells.length (size ts + 1) s ts with
    | (none, s, ts) => (cells, s, ts)
    | (some (cell, dupe), s, ts) =>
      let copies := max dupe 1
      let s := (List.range copies).foldl (fun s i => addPhantoms s cell (cells.length + i)) s
      let cells := cells ++ List.replicate copies cell
      if s.counting then firstCells cfg fuel s ts cells else (cells, s, ts)

/-- `parse_psv_table.rs:5-30` — `parse_psv_implicit_first_row` -/
def psvFirstRow (cfg : Config) (s : St) (ts : List Tok) : Option (St × List Tok) :=
  let (cells, s, ts) := firstCells cfg (size ts + 1) s ts []
  let ts := ts.dropWhile (·.kind = .Newline)
  (finishFirstRow { s with numCols := (cells.map (·.colSpan)).sum } cells).map fun s => (s, ts)

/-- `parse_psv_table.rs:51-61` — all copies of a cell but the last -/
def pushCopies (cell : Cell) : Nat → St → List Cell → Nat → St × List Cell × Nat
  | 0, s, cells, eff => (s, cells, eff)
  | n + 1, s, cells, eff =>
    let s := addPhantoms s cell eff
    let eff := eff + cell.colSpan
    if eff < s.numCols then pushCopies cell n s (cells ++ [cell]) eff
    else pushCopies cell n { s with spilled := s.spilled ++ [cell] } cells eff

/-- `parse_psv_table.rs:50-68` — the loop of `parse_psv_table_row` -/
def rowCells (cfg : Config) : Nat → St → List Tok → List Cell → Nat → List Cell × St × List Tok
  | 0, s, ts, cells, _ => (cells, s, ts)
  | fuel + 1, s, ts, cells, eff =>
    match psvCell cfg cells.length (size ts + 1) s ts with
    | (none, s, ts) => (cells, s, ts)
    | (some (cell, dupe), s, ts) =>
      let (s, cells, eff) := pushCopies cell (dupe - 1) s cells eff
      let s := addPhantoms s cell eff
      let eff := eff + cell.colSpan
      let cells := cells ++ [cell]
      if s.numCols ≤ eff then (cells, s, ts) else rowCells cfg fuel s ts cells eff

/-- `parse_psv_table.rs:32-73` — `parse_psv_table_row` -/
def psvRow (cfg : Config) (s : St) (ts : List Tok) : Option (List Cell) × St × List Tok :=
  let eff := rowPhantoms s
  let room := s.numCols - eff
  let cells := s.spilled.take room
  let s := { s with spilled := s.spilled.drop room }
  if cells.length = room then (some cells, { s with rowIdx := s.rowIdx + 1 }, ts)
  else
    let (cells, s, ts) := rowCells cfg (size ts + 1) s ts cells eff
    if cells.isEmpty then (none, s, ts) else (some cells, { s with rowIdx := s.rowIdx + 1 }, ts)

/-- `parse_table.rs:102-106`: the rows; `none`: the fuel is used up, `some none`: the program stops -/
def psvRows (cfg : Config) : Nat → St → List Tok → Option (Option St)
  | 0, _, _ => none
  | fuel + 1, s, ts =>
    match psvRow cfg s ts with
    | (none, s, _) => some (some s)
    | (some row, s, ts) =>
      match pushRow s row with
      | none => some none
      | some s => psvRows cfg fuel s ts

/-! ### tables with separators between cells: `parse_dsv_table.rs`, `parse_csv_table.rs` -/

/-- `parse_dsv_table.rs:118-155` — `consume_dsv_delimiter`; called only with a token left -/
def consumeDelimiter (cfg : Config) (s : St) (ts : List Tok) : Bool × St × List Tok :=
  match ts with
  | [] => (false, s, ts)
  | t :: rest =>
    if t.kind = .Newline then (true, { s with last := .newline, counting := false }, rest)
    else match cfg.sepKind with
      | some k => if t.kind = k then (true, { s with last := .delimiter }, rest) else (false, { s with last := .other }, ts)
      | none =>
        if t.lexeme.head? = some cfg.sep then
          (true, { s with last := .delimiter }, if t.lexeme.length = 1 then rest else dropChars 1 ts)
        else (false, { s with last := .other }, ts)

/-- `parse_csv_table.rs:29-67` — the loop of `finish_csv_table_cell`; `quoted`: inside double quotes -/
def csvText (cfg : Config) : Nat → Bool → St → List Tok → List Tok × St × List Tok
  | 0, _, s, ts => ([], s, ts)
  | fuel + 1, quoted, s, ts =>
    match ts with
    | [] => ([], s, [])
    | _ :: _ =>
      match (if quoted then (false, s, ts) else consumeDelimiter cfg s ts) with
      | (true, s, rest) => ([], s, rest)
      | (false, s, ts) =>
        match consumeSplitting cfg.embedded ts with
        | none => ([], s, ts)
        | some (t, ts) =>
          let s := if t.kind = .Newline then { s with counting := false } else s
          if t.kind = .DoubleQuote then
            if !quoted then csvText cfg fuel quoted s ts
            else match ts with
              | u :: rest =>
                if u.kind = .DoubleQuote then
                  let (text, s, ts) := csvText cfg fuel quoted s rest
                  (u :: text, s, ts)
                else csvText cfg fuel false s ts
              | [] => csvText cfg fuel false s ts
          else
            let (text, s, ts) := csvText cfg fuel quoted s ts
            (t :: text, s, ts)

/-- `parse_csv_table.rs:14-28` — whether a cell starts with a double quote, and the tokens after it -/
def openQuote (ts : List Tok) : Bool × List Tok :=
  match ts with
  | t :: rest => if t.kind = .DoubleQuote then (true, rest.dropWhile Tok.ws) else (false, ts)
  | [] => (false, ts)

/-- `parse_csv_table.rs:6-68` — `finish_csv_table_cell` -/
def csvCell (cfg : Config) (col : Nat) (s : St) (ts : List Tok) : Cell × St × List Tok :=
  let (quoted, ts) := openQuote ts
  let (text, s, ts) := csvText cfg (size ts + 1) quoted s ts
  let ((cell, _), s) := finishCell cfg s {} text col
  (cell, s, ts)

/-- `parse_dsv_table.rs:96-115` — the loop of `finish_dsv_table_cell` -/
def dsvText (cfg : Config) : Nat → St → List Tok → List Tok × St × List Tok
  | 0, s, ts => ([], s, ts)
  | fuel + 1, s, ts =>
    match ts with
    | [] => ([], s, [])
    | _ :: _ =>
      match consumeDelimiter cfg s ts with
      | (true, s, rest) => ([], s, rest)
      | (false, s, ts) =>
        match consumeSplitting cfg.embedded ts with
        | none => ([], s, ts)
        | some (t, ts) =>
          let s := if t.kind = .Newline then { s with counting := false } else s
          if t.kind = .Backslash then
            let (text, s, rest) := dsvText cfg fuel s (ts.drop 1)
            (ts.take 1 ++ text, s, rest)
          else
            let (text, s, rest) := dsvText cfg fuel s ts
            (t :: text, s, rest)

/-- `parse_dsv_table.rs:87-116` — `finish_dsv_table_cell` -/
def dsvCell (cfg : Config) (col : Nat) (s : St) (ts : List Tok) : Cell × St × List Tok :=
  let (text, s, ts) := dsvText cfg (size ts + 1) s ts
  let ((cell, _), s) := finishCell cfg s {} text col
  (cell, s, ts)

/-- `parse_dsv_table.rs:74-82`: a blank line after the first line makes the first row a header -/
def noteHeader (s : St) (ts : List Tok) : St :=
  match ts with
  | t :: _ => if s.header = .unknown ∧ s.last = .newline ∧ t.kind = .Newline then { s with header := .foundImplicit } else s
  | [] => s

/-- `parse_dsv_table.rs:41-85` — `parse_dsv_table_cell` -/
def delimitedCell (cfg : Config) (col : Nat) (s : St) (ts : List Tok) : Option Cell × St × List Tok :=
  if ts.isEmpty then (none, s, ts)
  else
    let newline := (ts.takeWhile Tok.ws).any (·.kind = .Newline)
    let ts := ts.dropWhile Tok.ws
    let s := { s with counting := s.counting && !newline }
    if s.last = .delimiter ∧ newline then
      let ((cell, _), s) := finishCell cfg s {} [] col
      (some cell, s, ts)
    else
      let (cell, s, ts) := if cfg.format = .csv then csvCell cfg col s ts else dsvCell cfg col s ts
      (some cell, noteHeader s ts, ts)

/-- `parse_dsv_table.rs:10-16` — the loop of `parse_dsv_implicit_first_row` -/
def dsvFirstCells (cfg : Config) : Nat → St → List Tok → List Cell → List Cell × St × List Tok
  | 0, s, ts, cells => (cells, s, ts)
  | fuel + 1, s, ts, cells =>
    match delimitedCell cfg cells.length s ts with
    | (none, s, ts) => (cells, s, ts)
    | (some cell, s, ts) =>
      let cells := cells ++ [cell]
      if s.counting then dsvFirstCells cfg fuel s ts cells else (cells, s, ts)

/-- `parse_dsv_table.rs:5-19` — `parse_dsv_implicit_first_row` -/
def dsvFirstRow (cfg : Config) (s : St) (ts : List Tok) : Option (St × List Tok) :=
  let (cells, s, ts) := dsvFirstCells cfg (size ts + 1) s ts []
  (finishFirstRow { s with numCols := cells.length } cells).map fun s => (s, ts)

/-- `parse_dsv_table.rs:26-32` — the loop of `parse_dsv_table_row` -/
def dsvRowCells (cfg : Config) : Nat → St → List Tok → List Cell → List Cell × St × List Tok
  | 0, s, ts, cells => (cells, s, ts)
  | fuel + 1, s, ts, cells =>
    match delimitedCell cfg cells.length s ts with
    | (none, s, ts) => (cells, s, ts)
    | (some cell, s, ts) =>
      let cells := cells ++ [cell]
      if cells.length = s.numCols then (cells, s, ts) else dsvRowCells cfg fuel s ts cells

/-- `parse_dsv_table.rs:21-39` — `parse_dsv_table_row` -/
def dsvRow (cfg : Config) (s : St) (ts : List Tok) : Option (List Cell) × St × List Tok :=
  let (cells, s, ts) := dsvRowCells cfg (size ts + 1) s ts []
  if cells.isEmpty then (none, s, ts) else (some cells, { s with rowIdx := s.rowIdx + 1 }, ts)

/-- `parse_table.rs:98-101` -/
def dsvRows (cfg : Config) : Nat → St → List Tok → Option (Option St)
  | 0, _, _ => none
  | fuel + 1, s, ts =>
    match dsvRow cfg s ts with
    | (none, s, _) => some (some s)
    | (some row, s, ts) =>
      match pushRow s row with
      | none => some none
      | some s => dsvRows cfg fuel s ts

/-! ### tables -/

/-- the options of a table; `lines`: the number of lines between the first delimiter and the next blank line -/
structure Options where
  header : Bool := false
  noheader : Bool := false
  footer : Bool := false
  lines : Nat := 0
deriving DecidableEq, Repr

/-- `ast/src/table.rs:85-91` — `Table`, without the widths -/
structure Table where
  header : Option (List Cell)
  rows : List (List Cell)
  footer : Option (List Cell)
deriving DecidableEq, Repr

/-- `parse_table.rs:59-88` — the state at the start -/
def start (cfg : Config) (o : Options) : St where
  numCols := cfg.colSpecs.length
  counting := cfg.colSpecs.isEmpty
  header := if o.header then .explicitlySet else if o.noheader then .explicitlyUnset else if o.lines ≠ 1 then .foundNone else .unknown

/-- `parse_table.rs:90-94` — the first row, if the number of columns is not declared -/
def firstRow (cfg : Config) (s : St) (ts : List Tok) : Option (St × List Tok) :=
  if s.counting then (if cfg.format = .prefixed then psvFirstRow cfg s ts else dsvFirstRow cfg s ts) else some (s, ts)

/-- `parse_table.rs:96-106` — all other rows -/
def otherRows (cfg : Config) (fuel : Nat) (s : St) (ts : List Tok) : Option (Option St) :=
  if cfg.format = .prefixed then psvRows cfg fuel s ts else dsvRows cfg fuel s ts

/-- `parse_table.rs:108-116` -/
def finishTable (o : Options) (s : St) : Table :=
  if o.footer then ⟨s.headerRow, s.rows.dropLast, s.rows.getLast?⟩ else ⟨s.headerRow, s.rows, none⟩

/-- what becomes of a table: it is parsed, the program stops, or it goes on for more rows than allowed -/
inductive Outcome | table (t : Table) | panic | unfinished
deriving DecidableEq, Repr

/-- `parse_table.rs:90-117` — `parse_table`, given the tokens of the content (of `table_content`); `fuel`: the greatest
number of rows -/
def parseTable (cfg : Config) (o : Options) (fuel : Nat) (ts : List Tok) : Outcome :=
  match firstRow cfg (start cfg o) ts with
  | none => .panic
  | some (s, ts) =>
    match otherRows cfg fuel s ts with
    | none => .unfinished
    | some none => .panic
    | some (some s) => .table (finishTable o s)

end Verif.Tables

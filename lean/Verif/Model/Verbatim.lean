import Verif.Model.DirText
/-!
Model of delimited blocks whose lines are kept as they are (listing, literal and passthrough blocks): `parser/src/parser.rs:156-236`,
`parser/src/tasks/parse_block.rs:281-422` (from the opening delimiter line to what is left after the block),
`parser/src/contiguous_lines.rs:290-312`, `parser/src/line.rs:975-1010`.

Simplifications: lines with a `{` (attribute references), lines that start with `:` (attribute entries) and directive lines are out of
the model, and so are comment and verse blocks. The source is one file and starts with the opening delimiter line. The content is given
as lines of tokens, before inline parsing (`Model/Inlines.lean`). What the opening line says about the language is left out.
-/
namespace Verif.Verbatim
open Verif Verif.Lexer Verif.Directives

/-- `parser/src/delimiter.rs:4-13` — `DelimiterKind` -/
inductive DelimKind where
  | blockQuote | example_ | open_ | sidebar | literal | listing | passthrough | comment
deriving DecidableEq, Repr

/-- `delimiter.rs:15-19` — `Delimiter` -/
structure Delim where
  kind : DelimKind
  len : Nat
deriving DecidableEq, Repr

/-- `delimiter.rs:44-62` — `to_delimiter_kind` -/
def toDelimKind (t : Tok) : Option DelimKind :=
  if t.kind ≠ .DelimiterLine then none
  else if t.lexeme = bs "****" then some .sidebar
  else if t.lexeme = bs "____" then some .blockQuote
  else if t.lexeme = bs "----" ∨ t.lexeme = bs "```" then some .listing
  else if t.lexeme = bs "...." then some .literal
  else if t.lexeme = bs "++++" then some .passthrough
  else if t.lexeme = bs "////" then some .comment
  else if t.lexeme = bs "--" then some .open_
  else some .example_

/-- `delimiter.rs:39-42` — `to_delimiter`; the length is a `u8` -/
def toDelim (t : Tok) : Option Delim := (toDelimKind t).map fun k => ⟨k, t.lexeme.length % 256⟩

/-- `line.rs:294-296` — `is_delimiter` -/
def isDelim (d : Delim) (l : List Tok) : Bool := l.length == 1 && (l.head?.bind toDelim) == some d

/-- `parse_inlines/mod.rs:1016-1020`: the line starts with the delimiter (the last case of `should_stop_at`); also `parser.rs:217-236`
(`at_delimiter`) for listing, literal and passthrough blocks -/
def startsDelim (d : Delim) (l : List Tok) : Bool := (l.head?.bind toDelim) == some d

/-- `line.rs:253-255` — `is_emptyish` -/
def emptyish (l : List Tok) : Bool := l.all fun t => t.kind == .Whitespace || t.kind == .Newline

/-- the loop of `read_lines` (`parser.rs:166-186`): the lines read and those left -/
def readLoop (acc : List (List Tok)) : List (List Tok) → List (List Tok) × List (List Tok)
  | [] => (acc, [])
  | l :: ls =>
    if emptyish l then (if acc = [] then readLoop [] ls else (acc, ls))
    else if ls.head? = some [] then (acc ++ [l], ls)
    else readLoop (acc ++ [l]) ls

/-- `parser.rs:156-192` — `read_lines`, with lines put back before (`peeked_lines`) -/
def readLines (peeked rest : List (List Tok)) : Option (List (List Tok) × List (List Tok)) :=
  if peeked ≠ [] then some (peeked, rest)
  else
    let r := readLoop [] (rest.dropWhile (·.isEmpty))
    if r.1 = [] then none else some r

/-- `while lines.last().map(|l| l.is_empty()) == Some(true) { lines.pop(); }` (`parser.rs:211-213`) -/
def popEmpty (l : List (List Tok)) : List (List Tok) := (l.reverse.dropWhile (·.isEmpty)).reverse

/-- `parser.rs:194-215` — `read_lines_until`; no lines at the end of the source (`parse_block.rs:349-351`) -/
def readUntil (d : Delim) (peeked rest : List (List Tok)) : List (List Tok) × List (List Tok) :=
  match readLines peeked rest with
  | none => ([], [])
  | some (lines, rest) =>
    if lines.any (isDelim d) then (lines, rest)
    else (popEmpty (lines ++ rest.takeWhile (!startsDelim d ·)), rest.dropWhile (!startsDelim d ·))

/-- `line.rs:975-980` — `Line::get_indentation` -/
def lineIndent : List Tok → Nat
  | [] => 0
  | t :: _ => if t.kind = .Whitespace then t.lexeme.length else 0

/-- `line.rs:982-1010` — `Line::set_indentation` -/
def setLineIndent (n : Nat) : List Tok → List Tok
  | [] => []
  | t :: ts =>
    if t.kind = .Whitespace ∧ n < t.lexeme.length then
      if n = 0 then ts
      else { t with start := t.start + (t.lexeme.length - n), lexeme := t.lexeme.take n } :: ts
    else if t.kind = .Whitespace ∧ t.lexeme.length < n then
      { t with lexeme := t.lexeme ++ List.replicate (n - t.lexeme.length) 32 } :: ts
    else if t.kind ≠ .Whitespace ∧ n ≠ 0 then ⟨.Whitespace, t.start, t.start, List.replicate n 32⟩ :: t :: ts
    else t :: ts

/-- `contiguous_lines.rs:290-299` — `get_indentation` -/
def indentOf : List (List Tok) → Nat
  | [] => 0
  | l :: ls => ls.foldl (fun n l => if lineIndent l < n then lineIndent l else n) (lineIndent l)

/-- `contiguous_lines.rs:301-312` — `set_indentation` -/
def setIndent (n : Nat) (ls : List (List Tok)) : List (List Tok) :=
  let current := indentOf ls
  if current = n then ls
  else ls.map fun l => if current ≤ lineIndent l then setLineIndent (lineIndent l - current + n) l else l

/-- `parse_block.rs:353-361` — the `indent` attribute: the last line is put aside -/
def reindent (indent : Option Nat) (ls : List (List Tok)) : List (List Tok) :=
  match indent with
  | none => ls
  | some n =>
    match ls.getLast? with
    | none => setIndent n ls
    | some last => setIndent n ls.dropLast ++ [last]

/-- what is known after a block -/
structure Block where
  content : List (List Tok)
  /-- the closing delimiter was found -/
  closed : Bool
  /-- `peeked_lines`: the lines after the block that are already read -/
  peeked : List (List Tok)
  rest : List (List Tok)
deriving DecidableEq, Repr

/-- `parse_block.rs:281-422` — `parse_delimited_block`; `none`: the source does not start with a delimiter line. If the lines at the
end of the content do not start with the delimiter they are lost (`parse_block.rs:401-407`). -/
def block (indent : Option Nat) (lines : List (List Tok)) : Option Block :=
  match readLines [] lines with
  | some (first :: more, rest) =>
    match first.head?.bind toDelim with
    | none => none
    | some d =>
      let (ls, rest) := readUntil d more rest
      let ls := reindent indent ls
      let content := ls.takeWhile (!startsDelim d ·)
      match readLines (ls.dropWhile (!startsDelim d ·)) rest with
      | none => some ⟨content, false, [], []⟩
      | some (l :: after, rest) =>
        if isDelim d l then some ⟨content, true, after, rest⟩ else some ⟨content, false, [], rest⟩
      | some ([], rest) => some ⟨content, false, [], rest⟩
  | _ => none

/-- the line is in the model -/
def plainLine (l : List Tok) : Bool := inModel (lineText l) && (l.head?.map (·.kind)) != some .Directive

/-- a source that starts with a delimited block; `none`: a panic of the lexer, no such source, or out of the model -/
def readBlock (plugins : List (List UInt8)) (indent : Option Nat) (src : List UInt8) : Option Block := do
  let lines ← lexLines src plugins (src.length + 1) 0
  if lines.all plainLine then block indent lines else none

/-- the bytes of a line (`line.rs:746-756`, `reassemble_src`) -/
def lineBytes (l : List Tok) : List UInt8 := l.flatMap Tok.lexeme

/-- the text of the content: the lines with line feeds between them (`parse_inlines/mod.rs:75-78`) -/
def Block.bytes (b : Block) : List (List UInt8) := b.content.map lineBytes

end Verif.Verbatim

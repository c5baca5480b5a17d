import Verif.Model.Tables
/-!
Model of what a table is made from: its lines (`parser/src/tasks/table/parse_table.rs:354-410`, `parser/src/line.rs:179-192`, `409-411`) and its
format and separator (`parse_table.rs:27-52`, `mod.rs:19-33`).

Simplifications: tokens have no locations, so that lines are compared by their lexemes only (`src_len` differs from them where attribute
references are replaced); where the table ends is told by the lines that are left.
-/
namespace Verif.TableText
open Verif.Tables

/-- a line -/
abbrev Line := List Tok

/-- `parse_table.rs:403-410` — `newline_token` -/
def newline : Tok := ⟨.Newline, ['\n'], false⟩

/-- `line.rs:179-192` — `src_eq` -/
def srcEq (a b : Line) : Bool := a.map Tok.lexeme == b.map Tok.lexeme

/-- `line.rs:409-411` — `is_comment` -/
def isComment (l : Line) : Bool := (l[0]?).any fun t => t.kind == .ForwardSlashes && t.lexeme.length == 2

/-- `parse_table.rs:362-380` — the first loop of `table_content`: over the lines next to the opening line; the lines that are left if the table
ends there -/
def chunkLoop (delim : Line) (tokens : List Tok) : List Line → List Tok × Option (List Line)
  | [] => (tokens, none)
  | l :: ls =>
    if srcEq l delim then (tokens, some ls)
    else if isComment l then chunkLoop delim tokens ls
    else chunkLoop delim (tokens ++ l ++ (if ls.isEmpty then [] else [newline])) ls

/-- `parse_table.rs:381-397` — the second loop: over all lines after that -/
def moreLoop (delim : Line) (tokens : List Tok) : List Line → List Tok × Option (List Line)
  | [] => (tokens, none)
  | l :: ls =>
    if isComment l then moreLoop delim tokens ls
    else
      let tokens := if tokens.isEmpty then tokens else tokens ++ [newline]
      if srcEq l delim then (tokens, some ls) else moreLoop delim (tokens ++ l) ls

/-- the content of a table, and the lines after it; `none`: it is reported that the table is never closed -/
structure Content where
  tokens : List Tok
  after : Option (List Line)
  deriving DecidableEq, Repr

/-- `parse_table.rs:354-400` — `table_content` -/
def tableContent (delim : Line) (chunk more : List Line) : Content :=
  match chunkLoop delim [] chunk with
  | (tokens, some rest) => ⟨tokens, some (rest ++ more)⟩
  | (tokens, none) => let (tokens, rest) := moreLoop delim tokens more; ⟨tokens, rest⟩

/-- `parse_table.rs:27-38` — the format of a table, given the attribute `format`, the first character of the opening line, and whether it is in
a cell -/
def formatOf (format : Option (List Char)) (delim : Char) (nested : Bool) : Tables.Format × Char :=
  if format = some "psv".toList then (if delim = '!' ∧ nested = true then (.prefixed, '!') else (.csv, '|'))
  else if format = some "csv".toList then (.csv, ',')
  else if format = some "tsv".toList then (.csv, '\t')
  else if format = some "dsv".toList then (.delimited, ':')
  else if delim = ':' then (.delimited, ':')
  else if delim = ',' then (.csv, ',')
  else (.prefixed, delim)

/-- `parse_table.rs:40-52`, `mod.rs:20-26` — the separator, given the attribute `separator`; whether it is reported -/
def separatorOf (sep : Option (List Char)) (f : Tables.Format × Char) : (Tables.Format × Char) × Bool :=
  match sep with
  | none => (f, false)
  | some [] => (f, true)
  | some (c :: rest) => ((f.1, c), !rest.isEmpty)

end Verif.TableText

import Verif.Model.Lexer
/-! Model of diagnostics: `parser/src/diagnostic.rs`, and how they leave the parser (`parser.rs:258-290`,
`tasks/table/parse_table.rs:207-253`). Text is UTF-8 bytes. -/
namespace Verif.Diagnostics
open Verif.Lexer

/-- `diagnostic.rs:4-11` — `Diagnostic` -/
structure Diagnostic where
  lineNum : Nat
  line : List UInt8
  message : List UInt8
  start : Nat
  width : Nat
  file : List UInt8
deriving DecidableEq, Repr

/-- `diagnostic.rs:102-112` — `err_at`: the diagnostic for a location of a source; `none`: out of bounds -/
def errAt (src file message : List UInt8) (start stop : Nat) : Option Diagnostic :=
  (lineNumberWithOffset src start).bind fun (lineNum, offset) =>
    (lineOf src start).bind fun line => some ⟨lineNum, line, message, offset, stop - start, file⟩

/-- `diagnostic.rs:126-136` — `err_token_start` -/
def errTokenStart (src file message : List UInt8) (start : Nat) : Option Diagnostic :=
  errAt src file message start (start + 1)

/-- `diagnostic.rs:45-56` — `err_line_of` -/
def errLineOf (src file message : List UInt8) (start : Nat) : Option Diagnostic :=
  (lineNumberWithOffset src start).bind fun (lineNum, _) =>
    (lineOf src start).bind fun line => some ⟨lineNum, line, message, 0, line.length, file⟩

def spaces (n : Nat) : List UInt8 := List.replicate n 32
def carets (n : Nat) : List UInt8 := List.replicate n 94
def number (n : Nat) : List UInt8 := (Nat.toDigits 10 n).map fun c => c.toNat.toUInt8

/-- `diagnostic.rs:188-194` — `line_num_pad` -/
def linePad (n : Nat) : Nat :=
  if n < 10 then 4 else if n < 100 then 5 else if n < 1000 then 6 else if n < 10000 then 7 else 8

/-- `diagnostic.rs:180-215` — `plain_text` (without colours) -/
def plainText (d : Diagnostic) : List UInt8 :=
  spaces (linePad d.lineNum - 3) ++ [45, 45, 62, 32] ++ d.file ++ [58] ++ number d.lineNum ++ [58] ++ number (d.start + 1) ++ [10] ++
  spaces (linePad d.lineNum - 2) ++ [124, 10] ++
  number d.lineNum ++ [32, 124, 32] ++ d.line ++ [10] ++
  spaces (linePad d.lineNum - 2) ++ [124, 32] ++ spaces d.start ++ carets d.width ++ [32] ++ d.message ++ [10]

/-! ### how they leave the parser -/

/-- What a parser does, as far as diagnostics are concerned. Nothing else depends on whether the mode is strict.
`report`: `self.err_…(…)?`. `cell`: an AsciiDoc table cell, parsed by a parser of its own; its diagnostics get the number
of lines before the cell added. `readFirst`: the first paragraph of an inline document, read with
`self.read_lines().expect("tmp")` (`parser.rs:265-268`). -/
inductive Act where
  | report (d : Diagnostic)
  | cell (linesBefore : Nat) (acts : List Act)
  | readFirst (acts : List Act)

/-- The result of `Parser::parse`: the warnings of `ParseResult`, or the diagnostics of `Err`; or it panics. -/
inductive Res where
  | ok (warnings : List Diagnostic)
  | err (diagnostics : List Diagnostic)
  | panic
deriving DecidableEq, Repr

/-- `root_lexer.rs:281-287` — `reline_diagnostics` -/
def reline (k : Nat) (ds : List Diagnostic) : List Diagnostic := ds.map fun d => { d with lineNum := d.lineNum + k }

mutual
/-- the rest of a parse, given the diagnostics collected so far; `diagnostic.rs:155-162` (`handle_err`),
`parse_table.rs:218-253` (cells), `parse_result.rs:42` (warnings) -/
def runActs (strict : Bool) (errors : List Diagnostic) : List Act → Res
  | [] => .ok errors
  | a :: as =>
    match runAct strict errors a with
    | .ok errors => runActs strict errors as
    | r => r
def runAct (strict : Bool) (errors : List Diagnostic) : Act → Res
  | .report d => if strict then .err [d] else .ok (errors ++ [d])
  | .cell k acts =>
    match runActs strict [] acts with
    | .ok warnings => .ok (errors ++ reline k warnings)
    | .err ds =>
      match reline k ds, strict with
      | d :: _, true => .err [d]
      | ds, _ => .ok (errors ++ ds)
    | .panic => .panic
  | .readFirst acts =>
    match runActs strict errors acts with
    | .ok errors => .ok errors
    | _ => .panic
end

/-- `parser.rs:258-290` — `parse` -/
def parse (strict : Bool) (acts : List Act) : Res := runActs strict [] acts

end Verif.Diagnostics

import Verif.Model.Diagnostics
import Verif.Model.Ast
/-!
Model of how a table of contents is asked for, and of what is said if it has no place: `parser/src/tasks/parse_doc_header.rs:87-107`,
`parser/src/tasks/diagnose_document.rs:69-91`, `parser/src/tasks/parse_block.rs:549-571`, `parser/src/diagnostic.rs`.
-/
namespace Verif.TocCheck
open Verif.Diagnostics Verif.Lexer Verif.Ast

/-- `AttrValue` (core/src/attrs.rs) -/
inductive Value
  | bool (b : Bool) | str (s : String)
  deriving DecidableEq, Repr

/-- `parse_doc_header.rs:87-107` — `prepare_toc`: the position of the table of contents, given the attribute `toc` -/
def prepareToc : Option Value → Option TocPosition
  | none => none
  | some (.bool false) => none
  | some (.bool true) => some .auto
  | some (.str s) =>
    if s = "left" then some .left
    else if s = "right" then some .right
    else if s = "preamble" then some .preamble
    else if s = "macro" then some .byMacro
    else if s = "auto" then some .auto
    else none

/-- `AttrDef` (parser/src/parse_context.rs): a definition of an attribute in the text, and where it begins -/
structure Def where
  name : String
  inHeader : Bool
  loc : Nat

/-- what comes of a check -/
inductive Report
  | nothing | reported (d : Diagnostic) | panic
  deriving DecidableEq

def ofOption : Option Diagnostic → Report
  | none => .panic
  | some d => .reported d

/-- `diagnostic.rs:58-73` — `err_doc_attr`; with `debug`, the assertion is compiled in -/
def errDocAttr (debug : Bool) (src file : List UInt8) (defs : List Def) (key : String) (message : List UInt8) : Report :=
  match defs.find? fun d => d.inHeader && d.name == key with
  | none => if debug then .panic else .nothing
  | some d => ofOption (errLineOf src file message d.loc)

def noMacro : List UInt8 := bs "Table of Contents set to `macro` but macro (`toc::[]`) not found"
def noPreamble : List UInt8 := bs "Table of Contents set to `preamble` but no preamble found"
def notEnabled : List UInt8 := bs "Found macro placing Table of Contents, but TOC not enabled"

/-- `diagnose_document.rs:69-91` — `diagnose_toc` -/
def diagnoseToc (debug : Bool) (src file : List UInt8) (defs : List Def) (position : Option TocPosition) (sawMacro : Bool)
    (content : DocContent) : Report :=
  match position with
  | some .byMacro => if sawMacro then .nothing else errDocAttr debug src file defs "toc" noMacro
  | some .preamble =>
    match content with
    | .blocks _ | .sections none _ => errDocAttr debug src file defs "toc" noPreamble
    | _ => .nothing
  | _ => .nothing

/-- `diagnostic.rs:14-26` — `err_line`, of a line that begins at `start` and reads `line` -/
def errLine (src file message line : List UInt8) (start : Nat) : Option Diagnostic :=
  (lineNumberWithOffset src start).map fun (lineNum, offset) => ⟨lineNum, line, message, offset, line.length, file⟩

/-- `parse_block.rs:549-571` — `parse_toc_macro`, what it reports -/
def tocMacro (src file line : List UInt8) (start : Nat) (position : Option TocPosition) : Report :=
  if position.isNone then ofOption (errLine src file notEnabled line start) else .nothing

/-- `diagnostic.rs:28-43` — `err_line_starting` -/
def errLineStarting (src file message : List UInt8) (start : Nat) : Option Diagnostic :=
  (lineNumberWithOffset src start).bind fun (lineNum, offset) =>
    (lineOf src start).map fun line => ⟨lineNum, line, message, offset, line.length, file⟩

/-- `str::find` -/
def find (pattern : List UInt8) : List UInt8 → Option Nat
  | [] => if pattern = [] then some 0 else none
  | b :: s => if pattern.isPrefixOf (b :: s) then some 0 else (find pattern s).map (· + 1)

/-- `diagnostic.rs:75-100` — `err_at_pattern` -/
def errAtPattern (src file message : List UInt8) (start : Nat) (pattern : List UInt8) : Option Diagnostic :=
  (lineNumberWithOffset src start).bind fun (lineNum, _) =>
    (lineOf src start).map fun line =>
      match find pattern line with
      | some i => ⟨lineNum, line, message, i, pattern.length, file⟩
      | none => ⟨lineNum, line, message, 0, line.length, file⟩

end Verif.TocCheck

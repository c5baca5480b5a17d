import Verif.Model.AttrRefs
/-!
Model of the source of table cells that are documents: `parser/src/line.rs:164-173`, `950-966`, `parser/src/tasks/table/parse_table.rs:216-218`.

The tokens of such a cell have been read with attribute references replaced (`Model/AttrRefs.lean`); the cell is a document of its own, with its own
attributes, and so its source is put together again from the tokens. Simplifications: the cell is read by itself, line by line, and not as a part of a
table; locations are start positions.
-/
namespace Verif.AttrRefs
open Verif Verif.Inlines TokenKind

/-- `line.rs:954-966` — the loop of `remove_resolved_attr_refs`; the first argument is `attr_loc` -/
def removeLoop : Option Nat → List Tok → List Tok
  | _, [] => []
  | loc, t :: ts =>
    if t.kind = AttrRef then t :: removeLoop (some t.loc) ts
    else if loc = some t.loc then { t with lexeme := [] } :: removeLoop loc ts
    else t :: removeLoop none ts

/-- `line.rs:954-966` — `remove_resolved_attr_refs` -/
def removeResolved (ts : List Tok) : List Tok := removeLoop none ts

/-- `line.rs:164-173` — `into_bytes` -/
def intoChars (ts : List Tok) : List Char := ts.flatMap (·.lexeme)

/-- `parse_table.rs:217-218` — the source of a cell, from its tokens -/
def cellSource (ts : List Tok) : List Char := intoChars (removeResolved ts)

end Verif.AttrRefs

import Verif.Model.AttrList
import Verif.Model.UiMacros
import Verif.Model.Split
/-!
Model of the macros `indexterm:[]` and `indexterm2:[]`: `parser/src/tasks/parse_inlines/index_term.rs:6-42`, called from
`parser/src/tasks/parse_inlines/mod.rs:318-325`.

Simplifications. The attribute list is that of `Model/AttrList.lean`: values are the tokens that are given to the inline parser. `single` stands
for what this parser makes of the value of a named attribute: its text if it is one text node (`ast/src/inline_nodes.rs:112-121`). The text of an
invalid macro is that of its tokens (the code reads it back from the source; this differs for attribute references). Diagnostics are collected
(non-strict mode).
-/
namespace Verif.IndexMacro
open Verif TokenKind AttrList

/-- `ast/src/inline.rs` — `IndexTermType` -/
inductive Kind where
  | visible (term : List Tk)
  | concealed (primary : List Tk) (secondary tertiary : Option (List Tk))
deriving DecidableEq, Repr

/-- `ast/src/inline.rs` — `IndexTermReference` -/
inductive Ref where
  | none
  | see (term : List Char)
  | seeAlso (terms : List (List Char))
deriving DecidableEq, Repr

inductive Node where
  | term (kind : Kind) (ref : Ref)
  /-- `index_term.rs:16-20` — reported as "invalid index term macro" and kept as text -/
  | invalid (text : List Char)
deriving DecidableEq, Repr

/-- `ast/src/attr_list.rs:104-109` — `named` -/
def named (single : List Tk → Option (List Char)) (a : Attrs) (key : List Char) : Option (List Char) :=
  (a.named.find? (·.1 = key)).bind fun p => if p.2 = [] then some [] else single p.2

/-- `index_term.rs:30-39` — the reference to other terms -/
def reference (single : List Tk → Option (List Char)) (a : Attrs) : Ref :=
  match named single a "see".toList with
  | some s => .see s
  | none =>
    match named single a "see-also".toList with
    | some s => .seeAlso ((Split.splitOn ',' s).map UiMacros.trim)
    | none => .none

/-- a positional attribute -/
def pos (a : Attrs) (i : Nat) : Option (List Tk) := (a.positional[i]?).join

/-- `index_term.rs:6-42` — `parse_index_term_macro`; `name` is the text of the first token, the line is behind it; `none`: it panics -/
def indexMacro (single : List Tk → Option (List Char)) (visible : Bool) (name : List Char) : List Tk → Option (Node × List Tk)
  | [] => none
  | t :: line =>
    if t.kind ≠ OpenBracket then none
    else (parseInlineMacro line).map fun (a, rest) =>
      match pos a 0 with
      | none => (.invalid (name ++ t.lexeme ++ Tk.text (line.take (line.length - rest.length))), rest)
      | some term => (.term (if visible then .visible term else .concealed term (pos a 1) (pos a 2)) (reference single a), rest)

end Verif.IndexMacro

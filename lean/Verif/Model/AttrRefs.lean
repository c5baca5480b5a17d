import Verif.Model.InlineText
import Verif.Model.Meta
/-!
Model of reading lines with attribute references: `parser/src/parser.rs` (`_read_line`), `parser/src/tasks/attr_refs.rs` and
the temporary buffer of `parser/src/lexer/root_lexer.rs`.

Simplifications: the lexer is run ahead, so that the source is a list of tokens with a token for each line end; attribute
entries and directives at the start of a line and values that start with an escape character (pass macros) are
not modelled (`unsupported`); diagnostics are left out.
-/
namespace Verif.AttrRefs
open Verif Verif.Inlines TokenKind

/-- what reading a line asks of the document -/
structure Cfg where
  /-- `document.meta.get` -/
  attrs : String → Option AttrValue
  /-- `ctx.subs.attr_refs()` -/
  subs : Bool

/-- `token.rs:171-184` — `lowercase_attr_name` (of ASCII letters): the name between the braces -/
def attrName (t : Tok) : String := String.ofList ((t.lexeme.drop 1).dropLast.map Char.toLower)

/-- the reader between two tokens -/
structure St where
  /-- `ctx.replacing_attr` -/
  replacing : Bool
  /-- `root_lexer.rs:14` — `tmp_buf`: the tokens still to be read from it; the buffer goes with its last token
  (`root_lexer.rs:304-306`) -/
  buf : List Tok
  /-- the tokens still to be read from the source -/
  src : List Tok

/-- `root_lexer.rs:186-205` — `peek`: the next token, and what is left without it (`root_lexer.rs:289-323`) -/
def St.next (s : St) : Option (Tok × St) :=
  match s.buf with
  | t :: b => some (t, { s with buf := b })
  | [] =>
    match s.src with
    | t :: r => some (t, { s with src := r })
    | [] => none

/-- `attr_refs.rs:47-53` — a token read while the value of a reference is being read is marked -/
def mark (t : Tok) (s : St) : Tok × St :=
  if s.replacing then ({ t with attr := true }, { s with replacing := !s.buf.isEmpty }) else (t, s)

/-- `root_lexer.rs:108-110`, `290-294` with `BufLoc::Repeat` — the tokens of a value have the location of the reference -/
def valueToks (t : Tok) (v : String) : List Tok :=
  (tokensOf v).map fun u => { u with loc := t.loc, before := t.before }

/-- the line so far, whether it is dropped, the reader; or nothing, for what is not modelled -/
abbrev Pushed := Option (List Tok × Bool × St)

/-- `attr_refs.rs:41-100` — `push_token_replacing_attr_ref` -/
def push (cfg : Cfg) (t : Tok) (s : St) (line : List Tok) (drop : Bool) : Pushed :=
  let (t, s) := mark t s
  if t.kind = AttrRef ∧ cfg.subs then
    match cfg.attrs (attrName t) with
    | some (.string v) =>
      if v.toList.head? = some '\x1b' then none
      else some (line ++ [t], drop, ⟨true, if v = "" then s.buf else valueToks t v, s.src⟩)
    | _ =>
      let m := (cfg.attrs "attribute-missing").bind AttrValue.str
      if m = some "drop" then some (line, drop, s)
      else if m = some "drop-line" then some (line, true, s)
      else some (line ++ [{ t with kind := Word }], drop, s)
  else some (line ++ [t], drop, s)

/-- why reading gives no lines -/
inductive Fail where
  | diverged | unsupported
deriving DecidableEq, Repr

/-- `parser.rs:108-154` — the loop of `_read_line`, up to and with the line end. The first number is a step budget. -/
def readLine (cfg : Cfg) : Nat → St → List Tok → Bool → Except Fail (List Tok × Bool × St)
  | 0, _, _, _ => .error .diverged
  | n + 1, s, line, drop =>
    match s.next with
    | none => .ok (line, drop, s)
    | some (t, s') =>
      if t.kind = Newline then .ok (line, drop, s')
      else if line = [] ∧ (t.kind = Directive ∨ (t.kind = Colon ∧ cfg.subs)) then .error .unsupported
      else match push cfg t s' line drop with
        | none => .error .unsupported
        | some (line, drop, s) => readLine cfg n s line drop

/-- `parser.rs:104-154` — line by line: a dropped line is passed over (`parser.rs:136-138`) -/
def readAll (cfg : Cfg) : Nat → St → Except Fail (List (List Tok))
  | 0, _ => .error .diverged
  | n + 1, s =>
    match s.next with
    | none => .ok []
    | some _ =>
      match readLine cfg (n + 1) s [] false with
      | .error e => .error e
      | .ok (line, drop, s) =>
        match readAll cfg n s with
        | .error e => .error e
        | .ok ls => .ok (if drop then ls else line :: ls)

/-- the lines of a text -/
def readText (cfg : Cfg) (fuel : Nat) (s : String) : Except Fail (List (List Tok)) := readAll cfg fuel ⟨false, [], tokensOf s⟩

end Verif.AttrRefs

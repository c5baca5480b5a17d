import Verif.Model.Token
/-!
Model of `parser/src/tasks/parse_attr_list.rs:166-213,215-354,376-531,550-581`: attribute lists such as
`[quote#id.role%opt, "Author, the", title='x']`.

Simplifications. Source locations are left out. The values of positional and named attributes are the tokens
given to the inline parser (`parse_attr_nodes`, 356-374), not the nodes it makes of them. In formatted text the
role is the text of its tokens (the code reads the same text back from the source). Diagnostics are collected
(non-strict mode); in strict mode the first one stops the parse. `none` is a panic.
-/
namespace Verif.AttrList
open TokenKind

/-- the diagnostics of `parse_attr` -/
inductive AttrErr where
  | onlyShorthand | invalidList | emptyId | dupId | invalidId
deriving DecidableEq, Repr

/-- `ast/src/attr_list.rs` — `AttrList`, with the diagnostics emitted while it was read -/
structure Attrs where
  positional : List (Option (List Tk)) := []
  named : List (List Char × List Tk) := []
  options : List (List Char) := []
  roles : List (List Char) := []
  id : Option (List Char) := none
  errs : List AttrErr := []
deriving DecidableEq, Repr

/-- `ast/src/attr_list.rs:194-197` — `insert_named` -/
def Attrs.insertNamed (a : Attrs) (k : List Char) (v : List Tk) : Attrs :=
  { a with named := a.named ++ [(k, v)], positional := a.positional ++ [none] }

/-- a diagnostic -/
def Attrs.err (a : Attrs) (e : AttrErr) : Attrs := { a with errs := a.errs ++ [e] }

/-- `parse_attr_list.rs:376-413` — variables of `find_delimiters`; the last delimiter comes first -/
structure DelimSt where
  ds : List Nat := []
  dbl : Option Nat := none
  sgl : Option Nat := none
  n : Nat := 0
deriving DecidableEq, Repr

/-- `parse_attr_list.rs:387-390,397-400` — the loop at a closing quote -/
def popTo (prev : Nat) : List Nat → Nat → List Nat × Nat
  | [], n => ([], n)
  | d :: ds, n => if (d :: ds).length > prev then popTo prev ds (n + d + 1) else (d :: ds, n)

/-- `parse_attr_list.rs:381-411` — one token of `find_delimiters` other than `]` -/
def delimStep (s : DelimSt) (t : Tk) : DelimSt :=
  let n := s.n + 1
  match t.kind, s.dbl, s.sgl with
  | DoubleQuote, none, _ => { s with dbl := some s.ds.length, n := n }
  | DoubleQuote, some p, _ => { s with ds := (popTo p s.ds n).1, n := (popTo p s.ds n).2, dbl := none }
  | SingleQuote, _, none => { s with sgl := some s.ds.length, n := n }
  | SingleQuote, _, some p => { s with ds := (popTo p s.ds n).1, n := (popTo p s.ds n).2, sgl := none }
  | Comma, _, _ => { s with ds := (n - 1) :: s.ds, n := 0 }
  | _, _, _ => { s with n := n }

/-- `parse_attr_list.rs:381-411` — the loop of `find_delimiters` -/
def delimLoop (s : DelimSt) : List Tk → DelimSt
  | [] => s
  | t :: ts => if t.kind = CloseBracket then s else delimLoop (delimStep s t) ts

/-- `parse_attr_list.rs:376-413` — `find_delimiters` -/
def findDelimiters (line : List Tk) : List Nat := (delimLoop {} line.dropLast).ds.reverse

/-- `parse_attr_list.rs:575-581` — `push_non_attr`, for a whole run -/
def nonAttr (l : List Tk) : List Tk := l.filter (·.kind ≠ AttrRef)

/-- `parse_attr_list.rs:561-569` — `trim` -/
def trim (l : List Tk) : List Tk :=
  ((l.dropWhile (·.kind = Whitespace)).reverse.dropWhile (·.kind = Whitespace)).reverse

/-- `parse_attr_list.rs:550-559` — `unquote` -/
def unquote (l : List Tk) : List Tk :=
  if l.length > 1 ∧
      ((l.head?.map (·.kind) = some DoubleQuote ∧ l.getLast?.map (·.kind) = some DoubleQuote) ∨
       (l.head?.map (·.kind) = some SingleQuote ∧ l.getLast?.map (·.kind) = some SingleQuote)) then
    l.tail.dropLast
  else l

/-- `parse_attr_list.rs:534-541` — `AttrIr` -/
inductive Ir where
  | positional (toks : List Tk) (shorthand : Bool)
  | named (name : List Char) (toks : List Tk)
  | options (groups : List (List Tk))
  | roles (groups : List (List Tk))
  | shorthand (toks : List Tk)
  | id (toks : List Tk)
deriving DecidableEq, Repr

/-- `parse_attr_list.rs:441-464` — loop of `parse_attr_subgroups`; `cur` is `current` -/
def subgroupsLoop (delim : TokenKind) (cur : List Tk) : List Tk → List (List Tk)
  | [] => if trim cur = [] then [] else [trim cur]
  | t :: ts =>
    if t.kind = delim then
      (if trim cur = [] then [] else [trim cur]) ++ subgroupsLoop delim [] ts
    else subgroupsLoop delim (cur ++ nonAttr [t]) ts

/-- `parse_attr_list.rs:441-464` — `parse_attr_subgroups` -/
def subgroups (delim : TokenKind) (l : List Tk) : List (List Tk) := subgroupsLoop delim [] l

/-- `parse_attr_list.rs:419-429` — loop of `parse_key_value_attr`: name and the tokens after the equals sign -/
def keyLoop (name : List Char) : List Tk → Option (List Char × List Tk)
  | [] => none
  | t :: ts =>
    if t.kind = EqualSigns then some (name, ts)
    else if t.kind = Whitespace then keyLoop name ts
    else keyLoop (name ++ t.lexeme) ts

/-- `parse_attr_list.rs:415-439` — `parse_key_value_attr` -/
def parseKeyValue : List Tk → Option Ir
  | [] => none
  | first :: rest => do
    let (name, toks) ← keyLoop first.lexeme rest
    let toks := if toks.head?.map (·.kind) = some Whitespace then toks.tail else toks
    if name = "options".toList ∨ name = "opts".toList then
      return .options (subgroups Comma (unquote toks))
    else if name = "role".toList then return .roles (subgroups Whitespace (unquote toks))
    else if name = "id".toList then return .id (unquote toks)
    else return .named name (unquote toks)

/-- `parse_attr_list.rs:471-475` — the local enum `Kind` -/
inductive IrKind where
  | shorthand | positional | keyValue
deriving DecidableEq, Repr

/-- a token that may begin a shorthand -/
def isSym (k : TokenKind) : Bool := k = Dots ∨ k = Hash ∨ k = Percent

/-- `parse_attr_list.rs:477-497` — the fold of `attr_ir` from index `i` on (`total` tokens in all) and the
variable `saw_shorthand_symbol` -/
def irScan (supports : Bool) (total i : Nat) (saw : Bool) : List Tk → Option IrKind × Bool
  | [] => (none, saw)
  | t :: ts =>
    let next := ts.head?
    if isSym t.kind = true ∧ supports = true ∧ i = 0 ∧ t.len = 1 ∧ total > 1 then (some .shorthand, saw)
    else if isSym t.kind = true ∧ t.len = 1 then
      irScan supports total (i + 1) (next.map (·.kind) ≠ some Whitespace) ts
    else if t.kind = DoubleQuote ∨ t.kind = SingleQuote then (some .positional, saw)
    else if t.kind = Whitespace ∧ ¬ next = some ⟨EqualSigns, ['=']⟩ then (some .positional, saw)
    else if t.kind = EqualSigns ∧ i = 0 then (some .positional, saw)
    else if t.kind = EqualSigns ∧ t.len = 1 then (some .keyValue, saw)
    else irScan supports total (i + 1) saw ts

/-- `parse_attr_list.rs:466-511` — `attr_ir` -/
def attrIr (toks : List Tk) (supports : Bool) : Option Ir :=
  let (kind, saw) := irScan supports toks.length 0 false toks
  match kind with
  | some .shorthand => some (.shorthand toks)
  | some .keyValue => parseKeyValue toks
  | _ =>
    let t := unquote toks
    some (.positional t (saw && t.length = toks.length))

/-- `parser/src/line.rs:628-637` — `consume_to_string` -/
def toStr (l : List Tk) : Option (List Char) := if l = [] then none else some (Tk.text l)

/-- `parse_attr_list.rs:513-530` — `push_attr_groups` (no group is empty) -/
def groupTexts (groups : List (List Tk)) : List (List Char) := (groups.filter (· ≠ [])).map Tk.text

/-- `parse_attr_list.rs:324` — `stop` -/
def isStop (t : Tk) : Bool := t.kind = Hash ∨ t.kind = Percent ∨ (t.kind = Dots ∧ t.len = 1)

/-- `parse_attr_list.rs:325-350` — the loop over shorthand tokens -/
def shorthandLoop (a : Attrs) : Nat → List Tk → Option Attrs
  | 0, _ => none
  | _ + 1, [] => some a
  | fuel + 1, t :: ts =>
    let word := Tk.text (ts.takeWhile (!isStop ·))
    let rest := ts.dropWhile (!isStop ·)
    if ts = [] then some (a.err .invalidId)
    else if t.kind = Dots ∧ t.len = 1 then shorthandLoop { a with roles := a.roles ++ [word] } fuel rest
    else if t.kind = Hash then
      if a.id.isSome then some (a.err .dupId)
      else shorthandLoop { a with id := some word } fuel rest
    else if t.kind = Percent then shorthandLoop { a with options := a.options ++ [word] } fuel rest
    else none

/-- `parse_attr_list.rs:228-268` — formatted text: only shorthand or one role -/
def parseAttrFormatted (a : Attrs) : Ir → Option Attrs
  | .positional inner _ =>
    if a.roles ≠ [] then (if inner = [] then none else some (a.err .onlyShorthand))
    else if inner = [] then some a
    else some { a with roles := [Tk.text inner] }
  | .id inner => if inner = [] then none else some (a.err .onlyShorthand)
  | .options groups | .roles groups =>
    if groups = [] ∨ groups.head? = some [] ∨ groups.getLast? = some [] then none
    else some (a.err .onlyShorthand)
  | .named _ _ => some (a.err .onlyShorthand)
  | .shorthand toks => if toks.length ≤ 1 then none else shorthandLoop a (toks.length + 1) toks

/-- `parse_attr_list.rs:215-354` — `parse_attr`. `fuel` bounds the recursion at 282 (two calls suffice: the
inner call starts at a shorthand symbol). -/
def parseAttr (formatted : Bool) : Nat → Bool → List Tk → Attrs → Option Attrs
  | 0, _, _, _ => none
  | fuel + 1, supports, toks, a =>
    if trim toks = [] then some { a with positional := a.positional ++ [none] }
    else do
      let ir ← attrIr (trim toks) supports
      if formatted then parseAttrFormatted a ir
      else match ir with
        | .positional t shorthand =>
          if shorthand && supports then
            let pos := t.takeWhile (!isSym ·.kind)
            let rest := t.dropWhile (!isSym ·.kind)
            if rest = [] then none
            else if nonAttr pos = [] then some (a.err .invalidList)
            else parseAttr formatted fuel true rest { a with positional := a.positional ++ [some (nonAttr pos)] }
          else some { a with positional := a.positional ++ [some t] }
        | .named name t => some (a.insertNamed name t)
        | .options groups => some { a with options := a.options ++ groupTexts groups }
        | .roles groups => some { a with roles := a.roles ++ groupTexts groups }
        | .id t =>
          if t = [] then some (a.err .emptyId)
          else if a.id.isSome then some (a.err .dupId)
          else do return { a with id := some (← toStr t) }
        | .shorthand t => if t.length ≤ 1 then none else shorthandLoop a (t.length + 1) t

/-- `parse_attr` with enough fuel -/
def attr (formatted supports : Bool) (a : Attrs) (piece : List Tk) : Option Attrs :=
  parseAttr formatted 2 supports piece a

/-- `parse_attr_list.rs:182-190` — cut off the pieces before the last one; `none` if tokens run out or if the
token after a piece is not a comma (`discard_assert`) -/
def cut : List Nat → List Tk → Option (List (List Tk) × List Tk)
  | [], line => some ([], line)
  | n :: ns, line => do
    if line.length < n then none
    match line.drop n with
    | [] => none
    | c :: rest =>
      if c.kind ≠ Comma then none
      let (ps, last) ← cut ns rest
      return (nonAttr (line.take n) :: ps, last)

/-- `parse_attr_list.rs:197-202` — the last piece of a list inside a line: up to a `]` without backslash before -/
def upToClose : List Tk → Option (List Tk × List Tk)
  | [] => none
  | [_] => none
  | t :: u :: rest =>
    if u.kind = CloseBracket ∧ t.kind ≠ Backslash then some ([t], u :: rest)
    else do
      let (p, r) ← upToClose (u :: rest)
      return (t :: p, r)

/-- `parse_attr_list.rs:192-203` — the last piece and the tokens from the closing bracket on -/
def lastPiece (fullLine : Bool) (line : List Tk) : Option (List Tk × List Tk) :=
  if fullLine then some (line.dropLast, line.drop (line.length - 1))
  else match line with
    | [] => none
    | t :: _ => if t.kind = CloseBracket then some ([], line) else upToClose line

/-- `parse_attr_list.rs:181-203` — the pieces of a list and the tokens from its closing bracket on -/
def pieces (fullLine : Bool) (line : List Tk) : Option (List (List Tk) × List Tk) := do
  let (ps, rest) ← cut (findDelimiters line) line
  let (last, close) ← lastPiece fullLine rest
  return (ps ++ [nonAttr last], close)

/-- `parse_attr_list.rs:166-213` — `_parse_attr_list`: the attributes and the tokens after the closing bracket.
The pieces are all cut before they are read; the code alternates, but reading a piece does not touch the line. -/
def parse (fullLine formatted supports : Bool) (line : List Tk) : Option (Attrs × List Tk) :=
  match line with
  | [] => none
  | t :: after =>
    if t.kind = CloseBracket then some ({}, after)
    else do
      let (ps, close) ← pieces fullLine line
      let a ← ps.dropLast.foldlM (attr formatted supports) {}
      let last := (ps.getLast?).getD []
      let a ← if !formatted || last.any (·.kind = Word) then attr formatted supports a last else some a
      match close with
      | [] => none
      | c :: rest => if c.kind = CloseBracket then some (a, rest) else none

/-- `parse_attr_list.rs:6-11` — `parse_block_attr_list` -/
def parseBlock (line : List Tk) : Option (Attrs × List Tk) := parse true false true line
/-- `parse_attr_list.rs:13-18` — `parse_block_macro_attr_list` -/
def parseBlockMacro (line : List Tk) : Option (Attrs × List Tk) := parse true false false line
/-- `parse_attr_list.rs:20-25` — `parse_inline_macro_attr_list` -/
def parseInlineMacro (line : List Tk) : Option (Attrs × List Tk) := parse false false false line
/-- `parse_attr_list.rs:27-32` — `parse_formatted_text_attr_list` -/
def parseFormatted (line : List Tk) : Option (Attrs × List Tk) := parse false true true line

end Verif.AttrList

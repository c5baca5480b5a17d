import Verif.Model.Inlines
/-!
Model: index terms in running text, `((term))` and `(((first,second,third)))`. Models `parser/src/tasks/parse_inlines/index_term.rs:44-252`,
`parser/src/tasks/parse_inlines/mod.rs:109-118,825-831`, `parser/src/line.rs:574-588`, `parser/src/contiguous_lines.rs:131-136` and
`ast/src/inline_nodes.rs` (`trim_trailing_whitespace`).

`goX` is the loop of `Model/Inlines.lean` with these two cases added; where that loop says `unsupported` for an index term, this one goes on.
Not modelled: the macros `indexterm:[]` and `indexterm2:[]`, locations, and the diagnostic for more than three terms (the terms behind the third are
dropped; in strict mode parsing stops there).
-/
namespace Verif.Inlines
open Verif TokenKind

/-- `line.rs:574-588` — `terminates_index_term` -/
def closing (l : List Tok) : Option Nat :=
  (l.find? (·.kind = CloseParens)).bind fun t => if t.len < 2 then none else some t.len

/-- `index_term.rs:243-252`, `contiguous_lines.rs:131-136` — `terminates`: how many parentheses close the term -/
def termEnd (line : Line) (lines : List Line) : Option Nat :=
  if isKind CloseParens line.toks.head? then none
  else match closing line.toks with
    | some n => some n
    | none => lines.findSome? fun l => closing l.toks

/-- `index_term.rs:82-85` — white space before a visible term is skipped -/
def skipBlank : List Line → List Line
  | [] => []
  | l :: ls =>
    if l.toks = [] then l :: ls
    else match l.toks.dropWhile (fun t => t.kind = Whitespace || t.kind = Newline) with
      | [] => skipBlank ls
      | ts => ⟨ts, l.orig⟩ :: ls

/-- white space at the end of tokens -/
def trimToks (ts : List Tok) : List Tok := (ts.reverse.dropWhile (·.kind = Whitespace)).reverse

/-- the state of `consume_splitting_csv_until`: the terms so far, the tokens of the current one, inside double quotes, right behind a comma -/
structure Split where
  items : List (List Tok) := []
  toks : List Tok := []
  quoted : Bool := false
  skip : Bool := false
deriving DecidableEq, Repr

/-- a term is complete -/
def Split.flush (s : Split) : List (List Tok) := if trimToks s.toks = [] then s.items else s.items ++ [trimToks s.toks]

/-- `index_term.rs:198-236` — one token -/
def Split.step (s : Split) (t : Tok) : Split :=
  if s.skip ∧ t.kind = Whitespace then s
  else if t.kind = Comma ∧ !s.quoted then ⟨s.flush, [], false, true⟩
  else if t.kind = DoubleQuote then { s with quoted := !s.quoted, skip := false }
  else { s with toks := s.toks ++ [t], skip := false }

/-- the tokens of a line, up to the closing parentheses; `len`: how many they are, as a `u8` -/
def splitLine (len : Nat) (s : Split) : List Tok → Split × Option (List Tok)
  | [] => (s, none)
  | t :: ts => if t.kind = CloseParens ∧ t.len = len % 256 then (s, some (t :: ts)) else splitLine len (s.step t) ts

/-- `index_term.rs:190-240` — `consume_splitting_csv_until` -/
def splitLines (len : Nat) (s : Split) : List Line → Split × List Line
  | [] => (s, [])
  | l :: ls =>
    if l.toks = [] then (s, l :: ls)
    else match splitLine len s l.toks with
      | (s, some rest) => (s, ⟨rest, l.orig⟩ :: ls)
      | (s, none) => splitLines len s ls

/-- `index_term.rs:137-144` — more than three closing parentheses: those before the last three belong to the last term -/
def putParens (close : Tok) (terms : List (List Tok)) : List (List Tok) :=
  if 3 < close.len then
    match terms.getLast? with
    | some t => terms.dropLast ++ [t ++ [{ close with lexeme := close.lexeme.take (close.len - 3) }]]
    | none => []
  else terms

/-- `index_term.rs:116-144` — the terms of a concealed index term and the lines behind it; `none`: it panics -/
def concealed (len : Nat) (lines : List Line) : Option (List (List Tok) × List Line) :=
  match splitLines len {} lines with
  | (s, l :: ls) =>
    match l.toks with
    | [] => none
    | close :: rest => some (putParens close (s.flush.take 3), restore ⟨rest, l.orig⟩ ls)
  | (_, []) => none

/-- what kind of index term it is -/
inductive Entry where
  /-- the number of closing parentheses, the text before the term, and the lines that start with the term -/
  | visible (len : Nat) (lead : List Char) (lines : List Line)
  | concealed (len : Nat) (lines : List Line)
  /-- `index_term.rs:182` — `unwrap` of `None` -/
  | panic

/-- `index_term.rs:44-72` — `parse_index_term_shorthand`; `t`: the opening parentheses -/
def entry (t : Tok) (len : Nat) (line : Line) (lines : List Line) : Entry :=
  if t.len = 2 then .visible len [] (skipBlank (restore line lines))
  else if len = 2 then .visible 2 (t.lexeme.take (t.len - 2)) (skipBlank (restore line lines))
  else if t.len = 3 ∧ len = 3 then .concealed 3 (restore line lines)
  else if t.len > len ∨ t.len > 3 then
    .concealed len (restore ⟨{ t with lexeme := t.lexeme.take (t.len - 3) } :: line.toks, line.orig⟩ lines)
  else .concealed len (restore line lines)

/-- `inline_nodes.rs` — `trim_trailing_whitespace`: the nodes and what was cut off -/
def trimNodes (ns : List Node) : List Node × List Char :=
  match ns.getLast? with
  | some (.leaf (.text s)) =>
    (ns.dropLast ++ [.leaf (.text (s.reverse.dropWhile (·.isWhitespace)).reverse)], (s.reverse.takeWhile (·.isWhitespace)).reverse)
  | _ => (ns, [])

/-- `index_term.rs:86-104` — the nodes of a visible term. More than two closing parentheses: as many characters as there are too many are taken
from the source behind the (trimmed) term; that is white space if some was cut off. `none`: nothing stands before them (their location is not
modelled then). -/
def visibleNodes (len : Nat) (ns : List Node) : Option (List Node) :=
  let (ns, cut) := trimNodes ns
  if len ≤ 2 then some ns
  else
    let more := (cut ++ List.replicate len ')').take (len - 2)
    match ns.getLast? with
    | some (.leaf (.text s)) => some (ns.dropLast ++ [.leaf (.text (s ++ more))])
    | some _ => some (ns ++ [.leaf (.text more)])
    | none => none

/-- which index term starts here: the text before it and the entry (`mod.rs:109-118`; with a backslash `mod.rs:825-831`,
`index_term.rs:167-188`) -/
def indexTerm (subs : Substitutions) (acc : Acc) (t : Tok) (line : Line) (lines : List Line) : Option (Acc × Entry) :=
  if t.kind = OpenParens ∧ t.len ≥ 2 ∧ subs.contains .macros then
    (termEnd line lines).map fun n => (acc, entry t n line lines)
  else if t.kind = Backslash then
    match line.toks with
    | p :: ts =>
      if p.kind = OpenParens ∧ p.len > 2 then
        match termEnd ⟨ts, line.orig⟩ lines with
        | some n => some ((acc.leaf .discarded).putText ['('], entry { p with lexeme := p.lexeme.dropLast } n ⟨ts, line.orig⟩ lines)
        | none => some (acc, .panic)
      else none
    | [] => none
  else none

/-- `index_term.rs:146-157` — the terms are parsed one after another -/
def parseTerms (f : Ctx → Line → Except Fail Out) : Ctx → List (List Tok) → Except Fail (List Node × Ctx)
  | ctx, [] => .ok ([], ctx)
  | ctx, t :: ts =>
    match f ctx (Line.new t) with
    | .error e => .error e
    | .ok o =>
      match parseTerms f o.ctx ts with
      | .error e => .error e
      | .ok (ns, ctx) => .ok (.wrap .concealedTerm o.nodes :: ns, ctx)

/-- `mod.rs:18-886` — `parse_inlines_until`, with index terms (see `go`) -/
def goX (env : Env) : Nat → Substitutions → List TSpec → Acc → Option Pend → Ctx → Option Line → List Line → Except Fail Out
  | 0, _, _, _, _, _, _, _ => .error .diverged
  | _ + 1, _, _, acc, pend, ctx, none, [] => .ok ⟨finish acc pend, ctx, []⟩
  | n + 1, subs, stop, acc, pend, ctx, none, l :: ls =>
    if env.stops l then .ok ⟨finish ⟨dropNewline acc.nodes, acc.text⟩ pend, ctx, restore l ls⟩
    else if isComment l && !subs.contains .callouts then
      goX env n subs stop (commentLine acc l ls) pend ctx none ls
    else goX env n subs stop acc pend ctx (some l) ls
  | n + 1, subs, stop, acc, pend, ctx, some l, ls =>
    if startsSeq stop l.toks then .ok ⟨finish acc.commit pend, ctx, restore (l.drop stop.length) ls⟩
    else match l.toks with
      | [] => goX env n subs stop (joinNewline acc ls) pend ctx none ls
      | t :: ts =>
        match act env subs stop ctx acc pend t ⟨ts, l.orig⟩ ls with
        | .next acc pend l => goX env n subs stop acc pend ctx (some l) ls
        | .brk acc pend ls => goX env n subs stop acc pend ctx none ls
        | .nest w stop' ctx' subs' acc pend ls =>
          match goX env n subs' stop' ⟨[], []⟩ none ctx' none ls with
          | .error e => .error e
          | .ok o => goX env n subs stop (newlineIfNeeded (acc.push (.wrap w o.nodes)) o.lines) pend .none none o.lines
        | .sub w none acc pend l => goX env n subs stop (acc.push (.wrap w [])) pend ctx (some l) ls
        | .sub w (some il) acc pend l =>
          match goX env n subs [] ⟨[], []⟩ none ctx none [il] with
          | .error e => .error e
          | .ok o => goX env n subs stop (acc.push (.wrap w o.nodes)) pend o.ctx (some l) ls
        | .link target caret il acc pend l =>
          match goX env n subs [] ⟨[], []⟩ none .linkMacroAttrs none [il] with
          | .error e => .error e
          | .ok o => goX env n subs stop (acc.push (linkNode target caret o.nodes)) pend .none (some l) ls
        | .note w acc pend ls =>
          match goX env n subs [.kind CloseBracket] ⟨[], []⟩ none ctx none ls with
          | .error e => .error e
          | .ok o => goX env n subs stop (acc.push (.wrap w o.nodes)) pend o.ctx none o.lines
        | .panic => .error .panic
        | .unsupported =>
          match indexTerm subs acc t ⟨ts, l.orig⟩ ls with
          | none => .error .unsupported
          | some (_, .panic) => .error .panic
          | some (acc, .visible len lead ls) =>
            match goX env n subs [.len (len % 256) CloseParens] ⟨[], []⟩ none ctx none ls with
            | .error e => .error e
            | .ok o =>
              match visibleNodes len o.nodes with
              | none => .error .unsupported
              | some ns => goX env n subs stop ((acc.putText lead).push (.wrap .indexTerm ns)) pend o.ctx none o.lines
          | some (acc, .concealed len ls) =>
            match concealed len ls with
            | none => .error .panic
            | some (terms, ls) =>
              match parseTerms (fun ctx l => goX env n subs [] ⟨[], []⟩ none ctx none [l]) ctx terms with
              | .error e => .error e
              | .ok (ns, ctx) => goX env n subs stop (acc.push (.wrap .concealed ns)) pend ctx none ls

/-- `mod.rs:11-16` — `parse_inlines`; the number is a step budget -/
def parseX (env : Env) (n : Nat) (subs : Substitutions) (lines : List Line) : Except Fail Out :=
  goX env n subs [] ⟨[], []⟩ none .none none lines

end Verif.Inlines

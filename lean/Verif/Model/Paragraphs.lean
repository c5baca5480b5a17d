import Verif.Model.LineKinds
/-!
Model: which kind of paragraph a chunk of lines is, and which of its lines are shown: paragraphs, literal paragraphs, admonitions,
quoted paragraphs and quotes in the style of Markdown. Models `parser/src/tasks/parse_block.rs:6-195,241-290,423-520`,
`parser/src/chunk.rs:13-47`, `parser/src/contiguous_lines.rs:157-180,271-288` and the loop of `parser/src/parser.rs:288-293`.

Simplifications: blocks that are no paragraphs (comments, lists, macros, delimited blocks, tables, breaks, deeper headings) and
attribute lists other than one style in brackets are out of the model (`unsupported`), and so are the lines that are out of
`Model/LineKinds.lean`. There is no list and no delimited block around the paragraphs. The content of a paragraph is given as lines of tokens,
before inline parsing (`Model/Inlines.lean`); what matters of inline parsing here is where it stops and that it panics when its first line
is empty. `debug_assert!` counts as a panic.
-/
namespace Verif.Paragraphs
open Verif Verif.Lexer Verif.LineKinds Verif.Directives

/-- the admonitions of `ast/src/block.rs:143-152` -/
inductive Admonition where
  | caution | important | note | tip | warning
deriving DecidableEq, Repr

/-- the contexts of `ast/src/block.rs` that a paragraph can have -/
inductive Kind where
  | paragraph | literal | listing | sidebar | quote | pass | comment | verse | example_ | admonition (a : Admonition)
deriving DecidableEq, Repr

/-- `ast/src/block.rs:143-152` — `derive_admonition` -/
def deriveAdmonition (s : List UInt8) : Option Admonition :=
  if s = bs "CAUTION" then some .caution
  else if s = bs "IMPORTANT" then some .important
  else if s = bs "NOTE" then some .note
  else if s = bs "TIP" then some .tip
  else if s = bs "WARNING" then some .warning
  else none

/-- `ast/src/block.rs:154-167` — `derive` -/
def derive (s : List UInt8) : Option Kind :=
  if s = bs "sidebar" then some .sidebar
  else if s = bs "quote" then some .quote
  else if s = bs "listing" ∨ s = bs "source" then some .listing
  else if s = bs "literal" then some .literal
  else if s = bs "pass" then some .pass
  else if s = bs "comment" then some .comment
  else if s = bs "verse" then some .verse
  else if s = bs "example" then some .example_
  else if s = bs "normal" then some .paragraph
  else (deriveAdmonition s).map .admonition

/-- a line; `whole`: nothing of it is consumed (`line.rs:908-910` — `is_fully_unconsumed`) -/
structure Line where
  toks : List Tok
  whole : Bool := true
deriving DecidableEq, Repr

/-- consuming tokens of a line -/
def Line.drop (n : Nat) (l : Line) : Line := ⟨l.toks.drop n, l.whole && decide (n = 0 ∨ l.toks = [])⟩

inductive Para where
  /-- `Content::Simple` -/
  | text (k : Kind) (lines : List Line)
  /-- `Content::QuotedParagraph`: the quote, who said it and where -/
  | quoted (quote who : List Line) (cite : Option (List Line))
  /-- `Content::Compound`, `Context::BlockQuote` -/
  | quotes (inner : List Para)

inductive Stop where
  | panic
  | unsupported
  | fuel
deriving DecidableEq, Repr

/-- `line.rs:409-411` — `is_comment` -/
def comment (l : Line) : Bool := l.whole && isComment l.toks

/-- `line.rs:268-273` — `is_block_attr_list` -/
def attrList (l : Line) : Bool := l.whole && isAttrList l.toks

/-- `line.rs:275-285` — `is_block_anchor` -/
def anchor (l : Line) : Bool :=
  startsSeq [.OpenBracket, .OpenBracket] l.toks && decide (4 < l.toks.length) &&
    !(([some .SingleQuote, some .DoubleQuote, some .Whitespace] : List (Option TokenKind)).contains (kindAt l.toks 2)) &&
    endsNonescaped .CloseBracket l.toks && kindAt l.toks (l.toks.length - 2) == some .CloseBracket &&
    (decide (5 < l.toks.length) || kindAt l.toks 2 == some .Word)

/-- `parse_inlines/mod.rs:999-1021` — `should_stop_at`, outside of lists and delimited blocks -/
def stops (l : Line) : Bool := kindAt l.toks 0 == some .DelimiterLine || attrList l || anchor l

/-- `parse_inlines/mod.rs:18-40` — the lines that inline parsing takes and the lines it leaves; `none`: it panics, because the first line
is empty -/
def inlineLines : List Line → Option (List Line × List Line)
  | [] => some ([], [])
  | l :: ls => if l.toks = [] then none else some ((l :: ls).takeWhile fun l => !stops l, (l :: ls).dropWhile fun l => !stops l)

/-- `line.rs:758-821` — `list_marker` (`Model/LineKinds.lean`) -/
def marker (word : Char → Bool) (l : Line) : Option Lists.Marker :=
  if comment l || kindAt l.toks 0 = some .EqualSigns then none
  else markerAt word l.toks (if kindAt l.toks 0 = some .Whitespace then l.toks.drop 1 else l.toks)

/-- `contiguous_lines.rs:271-288` — `trim_uniform_leading_whitespace`; the length is a `u8` -/
def trimUniform (ls : List Line) : Option (List Line) :=
  match ls.head?.bind (·.toks.head?) with
  | none => none
  | some t =>
    if t.kind = .Whitespace ∧ (∀ l ∈ ls, (l.toks.head?.any fun u => u.kind == .Whitespace && u.lexeme.length == t.lexeme.length % 256) = true ∧ 1 < l.toks.length) then
      some (ls.map (Line.drop 1))
    else none

/-- `chunk.rs:25-38` — an admonition label at the start of the first line -/
def label (ls : List Line) : Option (Admonition × List Line) :=
  match ls with
  | [] => none
  | l :: ls =>
    if startsSeq [.Word, .Colon, .Whitespace] l.toks then
      (l.toks.head?.bind fun t => deriveAdmonition t.lexeme).map fun a =>
        (a, if (l.drop 3).toks = [] then ls else l.drop 3 :: ls)
    else none

/-- `chunk.rs:18-46` — `block_paragraph_context`; `style`: what the block attributes say (`ast/src/attr_list.rs:129-146`) -/
def context (style : Option Kind) (ls : List Line) : Kind × List Line :=
  let (trimmed, ls) := match trimUniform ls with
    | some ls => (true, ls)
    | none => (false, ls)
  match style with
  | some k => (k, ls)
  | none =>
    match label ls with
    | some (a, ls) => (.admonition a, ls)
    | none =>
      if trimmed || ls.head?.any (fun l => kindAt l.toks 0 == some .Whitespace && decide (1 < l.toks.length)) then (.literal, ls)
      else (.paragraph, ls)

/-- `parse_block.rs:423-456` — `parse_paragraph`: the block and the lines that are put back. A comment has no content; that is left out. -/
def paragraph (style : Option Kind) (ls : List Line) : Except Stop (Option Para × List Line) :=
  let (k, ls) := context style ls
  match inlineLines ls with
  | none => .error .panic
  | some ([], left) => .ok (none, left)
  | some (taken, left) => .ok (some (.text k taken), left)

/-- `contiguous_lines.rs:157-180` — `is_quoted_paragraph` -/
def isQuoted (markdown : Bool) (ls : List Line) : Bool :=
  decide (2 ≤ ls.length) &&
    (ls.getLast?.any fun l => startsSeq [.Dashes, .Whitespace] l.toks && decide (3 ≤ l.toks.length) && (l.toks.head?.any fun t => t.lexeme.length == 2)) &&
    (if markdown then ls.head?.any fun l => !l.toks.isEmpty
      else (ls.head?.any fun l => kindAt l.toks 0 == some .DoubleQuote && decide (2 ≤ l.toks.length)) &&
        (ls[ls.length - 2]?.any fun l => l.toks.getLast?.any fun t => t.kind == .DoubleQuote))

/-- `parse_block.rs:469-482` — the tokens before and behind the first comma, without the white space behind it -/
def credits : List Tok → List Tok × List Tok
  | [] => ([], [])
  | t :: ts =>
    if t.kind = .Comma then ([], if kindAt ts 0 = some .Whitespace then ts.drop 1 else ts)
    else ((t :: (credits ts).1), (credits ts).2)

/-- the last token of the last line is dropped (`line.rs:332-339`) -/
def dropLastTok (ls : List Line) : List Line :=
  match ls.getLast? with
  | none => []
  | some l => ls.dropLast ++ [⟨l.toks.dropLast, false⟩]

/-- `parse_block.rs:490-500` — without the quotation marks -/
def unmarked : List Line → List Line
  | [] => []
  | l :: ls => dropLastTok (l.drop 1 :: ls)

/-- `parse_block.rs:458-511` — `parse_quoted_paragraph`: lines at which inline parsing stops and all lines behind them are lost -/
def quotedParagraph (markdown : Bool) (ls : List Line) : Except Stop Para :=
  match ls.getLast? with
  | none => .error .panic
  | some last =>
    let (who, cite) := credits (last.toks.drop 2)
    let quote := if markdown then ls.dropLast else unmarked ls.dropLast
    match inlineLines [⟨who, true⟩], inlineLines [⟨cite, true⟩], inlineLines quote with
    | some (who, _), some (cite, _), some (quote, _) => .ok (.quoted quote who (some cite))
    | some (who, _), none, some (quote, _) => .ok (.quoted quote who none)
    | _, _, _ => .error .panic

/-- the lines of a quote without the marks (`parse_block.rs:249-254`) -/
def unquote (l : Line) : Line :=
  if kindAt l.toks 0 = some .GreaterThan then
    (if kindAt l.toks 1 = some .Whitespace then l.drop 2 else l.drop 1)
  else l

/-- `parse_block.rs:248-266` — the paragraphs of a quote -/
def paras (current : List Line) : List Line → List (List Line)
  | [] => if current = [] then [] else [current]
  | l :: ls =>
    if (unquote l).toks = [] then (if current = [] then paras [] ls else current :: paras [] ls)
    else paras (current ++ [unquote l]) ls

/-- `parse_block.rs:271-277` — the blocks of a quote; lines that are put back must not be there when more lines are put back
(`parser.rs:238-243`) -/
def inQuote (f : Bool → List Line → Except Stop (Option Para × List Line × Bool)) : Bool → List (List Line) → List Line → Except Stop (List Para × List Line)
  | _, [], left => .ok ([], left)
  | md, p :: ps, left => do
    if left ≠ [] then throw .panic
    let (b, left, md) ← f md p
    let (bs, left) ← inQuote f md ps left
    return (b.toList ++ bs, left)

/-- `parse_block.rs:280-289` — a quote of one quoted paragraph is that paragraph -/
def asQuote : List Para → Para
  | [.quoted q w c] => .quoted q w c
  | inner => .quotes inner

/-- `parser.rs:301-345` — `parse_chunk_meta`: a style in brackets, or nothing -/
def chunkMeta : List Line → Except Stop (Option (List UInt8) × List Line)
  | [] => .error .panic
  | l :: ls =>
    if !l.whole then .ok (none, l :: ls)
    else if isTitle l.toks || anchor l then .error .unsupported
    else if attrList l then
      (if l.toks.map Tok.kind = [.OpenBracket, .Word, .CloseBracket] && !(ls.head?.any fun m => isTitle m.toks || anchor m || attrList m || comment m) && !ls.isEmpty then
        .ok (l.toks[1]?.map Tok.lexeme, ls)
      else .error .unsupported)
    else .ok (none, l :: ls)

/-- is the line in the model (`Model/LineKinds.lean`)? -/
def supported (l : Line) : Bool := inModel (lineText l.toks) && !(lineText l.toks).contains '@' && kindAt l.toks 0 != some .Directive

/-- the kinds of blocks that are left out, by the first line (`parse_block.rs:53-184`) -/
def otherBlock (word : Char → Bool) (l : Line) : Bool :=
  (startsSeq [.MacroName, .Colon] l.toks && (l.toks.any fun t => t.kind == .OpenBracket) && endsNonescaped .CloseBracket l.toks) ||
    (marker word l).isSome || kindAt l.toks 0 == some .DelimiterLine || (breakOf l.toks).isSome ||
    (([some .Pipe, some .Colon, some .Bang, some .Comma] : List (Option TokenKind)).contains (kindAt l.toks 0) && kindAt l.toks 1 == some .EqualSigns && l.toks.length == 2)

/-- `parse_block.rs:6-195,241-290` — `parse_block` with `parse_markdown_blockquote`: the block, the lines that are put back, and whether the
parser is in a quote after it. No block: the lines are put back because they start with the heading of a section, or a paragraph is empty. -/
def block (word : Char → Bool) : Nat → Bool → List Line → Except Stop (Option Para × List Line × Bool)
  | 0, _, _ => .error .fuel
  | n + 1, md, ls => do
    if !ls.all supported || ls.head?.any comment then throw .unsupported
    let (style, rest) ← chunkMeta ls
    match rest with
    | [] => throw .panic
    | l :: more =>
      if comment l then throw .unsupported
      match headingLevel l.toks with
      | some level => if level ≤ 1 && style.isNone then return (none, l :: more, md) else throw .unsupported
      | none => pure ()
      if otherBlock word l then throw .unsupported
      if startsSeq [.GreaterThan, .Whitespace] l.toks then
        let (inner, left) ← inQuote (block word n) true (paras [] (l :: more)) []
        return (some (asQuote inner), left, false)
      else if isQuoted md (l :: more) then
        let q ← quotedParagraph md (l :: more)
        return (some q, [], md)
      else
        let (b, left) ← paragraph (style.bind derive) (l :: more)
        return (b, left, md)

/-- `parser.rs:288-293` — `parse_sectioned`: blocks until there is none. What is left when a block is missing is read as sections if it
starts with the heading of one; else it is lost. -/
def blocks (word : Char → Bool) : Nat → List (List Line) → Except Stop (List Para × List (List Line))
  | 0, _ => .error .fuel
  | _ + 1, [] => .ok ([], [])
  | n + 1, c :: cs => do
    let (b, left, _) ← block word n false c
    let rest := if left = [] then cs else left :: cs
    match b with
    | none => return ([], rest)
    | some b =>
      let (bs, lost) ← blocks word n rest
      return (b :: bs, lost)

/-- a source text of paragraphs -/
def read (plugins : List (List UInt8)) (word : Char → Bool) (n : Nat) (src : List UInt8) : Option (Except Stop (List Para × List (List Line))) :=
  (lexLines src plugins (src.length + 1) 0).map fun lines =>
    blocks word n ((chunksOf (lines.length + 1) lines).map (·.map fun l => ⟨l, true⟩))

end Verif.Paragraphs

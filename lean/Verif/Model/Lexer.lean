/-!
Model of `parser/src/lexer/source_lexer.rs` (tokenizer of one source) and of
`parser/src/lexer/root_lexer.rs:61-81`.

Simplifications: a source is a list of bytes; positions are natural numbers (the code uses `u32`, so sources
of 4 GiB and more are out of the model); the arena is not modelled. A slice out of bounds or an `unwrap` on
`None` is `none`. `std::str::from_utf8(..).unwrap()` in `token` is not evaluated here: that it never fails is
theorem `C03_lexemes_are_utf8`.
-/
namespace Verif

/-- `parser/src/token.rs:15-68` -/
inductive TokenKind where
  | Ampersand | AttrDef | AttrPassDbl | AttrRef | Backtick | Backslash | Bang | CalloutNumber | Caret
  | CloseBrace | CloseBracket | CloseParens | Colon | Comma | Dashes | DelimiterLine | Digits | Directive
  | Discard | DoubleQuote | Dots | Email | Entity | EqualSigns | Eof | ForwardSlashes | GreaterThan | Hash
  | LessThan | MacroName | MaybeEmail | Newline | NoBreakSpace | OpenBrace | OpenBracket | OpenParens
  | Percent | Pipe | Plus | PreprocPassthru | Punctuation | QuestionMark | SemiColon | SingleQuote | Star
  | TermDelimiter | Tilde | Underscore | UriScheme | Whitespace | Word
deriving DecidableEq, Repr

namespace Lexer
open TokenKind

/-- byte of an ASCII character literal -/
abbrev ch (c : Char) : UInt8 := UInt8.ofNat c.toNat
/-- bytes of an ASCII string literal -/
abbrev bs (s : String) : List UInt8 := s.toList.map ch

/-- `u8::is_ascii_digit` -/
def isDigit (b : UInt8) : Bool := ch '0' ≤ b && b ≤ ch '9'
/-- `u8::is_ascii_alphabetic` -/
def isAlpha (b : UInt8) : Bool := (ch 'a' ≤ b && b ≤ ch 'z') || (ch 'A' ≤ b && b ≤ ch 'Z')
/-- `u8::is_ascii_alphanumeric` -/
def isAlnum (b : UInt8) : Bool := isAlpha b || isDigit b
/-- `u8::is_ascii_hexdigit` -/
def isHex (b : UInt8) : Bool := isDigit b || (ch 'a' ≤ b && b ≤ ch 'f') || (ch 'A' ≤ b && b ≤ ch 'F')
/-- `u8::is_ascii_whitespace` -/
def isWs (b : UInt8) : Bool := b == 32 || b == 9 || b == 10 || b == 12 || b == 13

/-- a token before its lexeme is copied: kind and byte range, and the lexer position afterwards -/
structure Step where
  kind : TokenKind
  start : Nat
  stop : Nat
  pos : Nat
deriving DecidableEq, Repr

/-- `&src[i..]`; `none` is the panic -/
def sliceFrom (src : List UInt8) (i : Nat) : Option (List UInt8) :=
  if i ≤ src.length then some (src.drop i) else none

/-- `&src[i..j]`; `none` is the panic -/
def slice (src : List UInt8) (i j : Nat) : Option (List UInt8) :=
  if i ≤ j ∧ j ≤ src.length then some ((src.drop i).take (j - i)) else none

/-- `source_lexer.rs:652-654` — `peek_bytes` -/
def peekBytes (src : List UInt8) (pos n : Nat) : Option (List UInt8) :=
  if pos + n ≤ src.length then some ((src.drop pos).take n) else none

/-- `source_lexer.rs:410-439` — `advance_while`, `advance_while_one_of`, `advance_while_with`: position after
advancing over the bytes satisfying `f`. -/
def scan (f : UInt8 → Bool) (src : List UInt8) (pos : Nat) : Nat :=
  pos + ((src.drop pos).takeWhile f).length

/-- `source_lexer.rs:267-270` — `at_line_start` -/
def atLineStart (src : List UInt8) (pos : Nat) : Bool := pos == 0 || src[pos - 1]? == some 10

/-- `Some(b'\n' | b'\r') | None` -/
def eol (b : Option UInt8) : Bool := b == some 10 || b == some 13 || b == none

/-- `source_lexer.rs:158-201` — `at_delimiter_line` -/
def atDelimiterLine (src : List UInt8) (pos : Nat) : Option (Nat × UInt8) :=
  match src[pos]? with
  | none => none
  | some c =>
    if !atLineStart src pos || !(bs "_-*=.+/`").contains c then none
    else if c = ch '`' ∧ src[pos+1]? = some (ch '`') ∧ src[pos+2]? = some (ch '`')
        ∧ src[pos+3]? ≠ some (ch '`') then some (3, ch '`')
    else if c = ch '-' ∧ src[pos+1]? = some (ch '-') ∧ eol src[pos+2]? = true then some (2, ch '-')
    else if (bs "*_-+./=").contains c ∧ src[pos+1]? = some c ∧ src[pos+2]? = some c ∧ src[pos+3]? = some c
        ∧ eol src[pos+4]? = true then some (4, c)
    else if c = ch '=' ∧ src[pos+1]? = some c ∧ src[pos+2]? = some c ∧ src[pos+3]? = some c
        ∧ src[pos+4]? = some c then
      let e := scan (· == ch '=') src (pos + 5)
      if eol src[e]? then some (e - pos, ch '=') else none
    else none

/-- `source_lexer.rs:302-306` — `single`; `pos` is already past the byte -/
def single (k : TokenKind) (pos : Nat) : Step := ⟨k, pos - 1, pos, pos⟩

/-- `source_lexer.rs:308-312` — `repeating` (also `digits`, `whitespace`: 296-300, 314-318) -/
def repeating (k : TokenKind) (f : UInt8 → Bool) (src : List UInt8) (pos : Nat) : Step :=
  ⟨k, pos - 1, scan f src pos, scan f src pos⟩

/-- `source_lexer.rs:125-129` — `codepoint` -/
def codepoint (k : TokenKind) (n pos : Nat) : Step := ⟨k, pos + (n - 1) - n, pos + (n - 1), pos + (n - 1)⟩

/-- `source_lexer.rs:466-483` — bytes that end a word -/
def wordBoundary (withAt : Bool) (b : UInt8) : Bool :=
  (withAt && b == ch '@') ||
  b == 0x0B || b == 0x0C || b == 0x1B || b == 9 || b == 10 || b == 13 ||
  (bs " :;<>,^_~*!?`+.[]{}()=|\"'\\%#&-").contains b

/-- `root_lexer.rs:61-81` — `is_builtin_macro_name` -/
def builtinMacros : List (List UInt8) :=
  [bs "footnote", bs "image", bs "indexterm", bs "indexterm2", bs "anchor", bs "audio", bs "icon", bs "kbd",
   bs "link", bs "pass", bs "btn", bs "menu", bs "mailto", bs "toc", bs "xref", bs "video"]

/-- `source_lexer.rs:398-404` — `is_macro_name` -/
def isMacroName (plugins : List (List UInt8)) (lexeme : List UInt8) : Bool :=
  builtinMacros.contains lexeme || plugins.contains lexeme

/-- `source_lexer.rs:656-666` — `continues_uri_scheme` -/
def continuesUriScheme (src : List UInt8) (pos : Nat) (lexeme : List UInt8) : Option Nat :=
  if [bs "http", bs "https", bs "ftp", bs "mailto", bs "irc"].contains lexeme
      && peekBytes src pos 3 == some (bs "://") then some 3
  else if lexeme == bs "file" && peekBytes src pos 4 == some (bs ":///") then some 4
  else none

/-- `Some(b' ' | b'\t' | b'\n' | b'\r') | None` -/
def termEnd (b : Option UInt8) : Bool :=
  b == none || b == some 32 || b == some 9 || b == some 10 || b == some 13

/-- `source_lexer.rs:516-531` — `peek_term_delimiter` -/
def peekTermDelimiter (src : List UInt8) (pos : Nat) : Option Bool := do
  let peek ← sliceFrom src (pos + 1)
  if peek[0]? ≠ some (ch ':') then return false
  return termEnd peek[1]?
    || (peek[1]? == some (ch ':') && termEnd peek[2]?)
    || (peek[1]? == some (ch ':') && peek[2]? == some (ch ':') && termEnd peek[3]?)

/-- directive names of `source_lexer.rs:333-336` -/
def directives : List (List UInt8) :=
  [bs "include", bs "ifdef", bs "ifndef", bs "endif", bs "ifeval", bs "asciidorkinclude"]

/-- `source_lexer.rs:363-365` — characters of the domain part of an email -/
def domainChar (b : UInt8) : Bool := isAlnum b || b == ch '.' || b == ch '-' || b == ch '_'

/-- `source_lexer.rs:345-360` — macro arm of `word` -/
def wordMacro (src : List UInt8) (plugins : List (List UInt8)) (start stop : Nat) (lexeme : List UInt8) : Step :=
  match continuesUriScheme src stop lexeme with
  | some n => ⟨UriScheme, start, stop + n, stop + n⟩
  | none =>
    if isMacroName plugins lexeme then ⟨MacroName, start, stop + 1, stop + 1⟩
    else if (bs "footnote").isSuffixOf lexeme then ⟨Word, start, stop - 8, stop - 8⟩
    else if (bs "indexterm").isSuffixOf lexeme then ⟨Word, start, stop - 9, stop - 9⟩
    else ⟨Word, start, stop, stop⟩

/-- `source_lexer.rs:361-374` — email arm of `word`; `stop` is the position of the `@` -/
def wordEmail (src : List UInt8) (start stop : Nat) : Option Step := do
  let domainEnd := scan domainChar src (stop + 1)
  let domain ← slice src (stop + 1) domainEnd
  if domain.length > 3 && domain.contains (ch '.') && src[domainEnd]? != some (ch '@') then
    return ⟨MaybeEmail, start, domainEnd, domainEnd⟩
  let e := scan (fun b => !wordBoundary false b) src (domainEnd - domain.length)
  return ⟨Word, start, e, e⟩

/-- `source_lexer.rs:320-378` — `word`; `pos` is already past the first byte -/
def word (src : List UInt8) (plugins : List (List UInt8)) (pos : Nat) : Option Step := do
  let start := pos - 1
  let stop := scan (fun b => !wordBoundary true b) src pos
  let lexeme ← slice src start stop
  if src[stop]? = some (ch ':') then
    if src[stop + 1]? = some (ch ':') ∧ directives.contains lexeme = true ∧ src.length - stop > 4 then
      let b ← src[stop + 2]?
      if isWs b then return ⟨Word, start, stop, stop⟩
      else return ⟨Directive, start, stop + 2, stop + 2⟩
    else
      let term ← peekTermDelimiter src stop
      if term then return ⟨Word, start, stop, stop⟩
      else return wordMacro src plugins start stop lexeme
  else if src[stop]? = some (ch '@') then wordEmail src start stop
  else return ⟨Word, start, stop, stop⟩

/-- `source_lexer.rs:485-514` — `maybe_term_delimiter` -/
def maybeTermDelimiter (src : List UInt8) (pos : Nat) (c : UInt8) (lineStart : Bool) : Option Step := do
  let kind := if c = ch ':' then Colon else SemiColon
  if lineStart = true ∨ src[pos]? ≠ some c then return single kind pos
  let peek ← sliceFrom src (pos + 1)
  if termEnd peek[0]? then return ⟨TermDelimiter, pos + 1 - 2, pos + 1, pos + 1⟩
  else if c = ch ':' ∧ peek[0]? = some (ch ':') then
    let num := if peek[1]? = some (ch ':') then 4 else 3
    let next := if peek[1]? = some (ch ':') then peek[2]? else peek[1]?
    if termEnd next then
      return ⟨TermDelimiter, pos + (num - 1) - num, pos + (num - 1), pos + (num - 1)⟩
    else return single kind pos
  else return single kind pos

/-- the loop of `source_lexer.rs:541-556`: length of the attribute name, if it is closed and not empty -/
def attrRefLen (len : Nat) : List UInt8 → Option Nat
  | [] => none
  | c :: rest =>
    if c = ch '}' then (if len = 0 then none else some len)
    else if c = ch '-' ∨ c = ch '_' then attrRefLen (len + 1) rest
    else if isAlnum c then attrRefLen (len + 1) rest
    else none

/-- `source_lexer.rs:536-558` — `maybe_attr_ref` -/
def maybeAttrRef (src : List UInt8) (pos : Nat) : Option Step := do
  if 2 ≤ pos ∧ src[pos - 2]? = some (ch '\\') then return single OpenBrace pos
  let peek ← sliceFrom src pos
  match attrRefLen 0 peek with
  | some len => return ⟨AttrRef, pos - 1, pos + len + 1, pos + len + 1⟩
  | none => return single OpenBrace pos

/-- `source_lexer.rs:590-608` — `<!--N-->` once `<!--` and a first digit are seen; `peek` is what follows -/
def xmlCallout (pos : Nat) (peek : List UInt8) : Step :=
  let n := (peek.takeWhile isDigit).length
  -- the loop stops at the first non digit, which must be `-`
  if peek[n]? = some (ch '-') then
    if peek[n+1]? = some (ch '-') ∧ peek[n+2]? = some (ch '>') then
      ⟨CalloutNumber, pos - 1, pos + (n + 1 + 6), pos + (n + 1 + 6)⟩
    else single LessThan pos
  else single LessThan pos

/-- `source_lexer.rs:560-613` — `maybe_callout_number` -/
def maybeCalloutNumber (src : List UInt8) (pos : Nat) : Option Step := do
  match src[pos]? with
  | none => return single LessThan pos
  | some c =>
    if isDigit c then
      let e := scan isDigit src (pos + 1)
      if src[e]? = some (ch '>') then return ⟨CalloutNumber, pos - 1, e + 1, e + 1⟩
      else return single LessThan (e - (e - (pos - 1) - 1))
    else if c = ch '.' then
      if src[pos + 1]? = some (ch '>') then return ⟨CalloutNumber, pos - 1, pos + 2, pos + 2⟩
      else return single LessThan (pos + 1 - (pos + 1 - (pos - 1) - 1))
    else if c = ch '!' then
      let peek ← sliceFrom src (pos + 1)
      if peek[0]? = some (ch '-') ∧ peek[1]? = some (ch '-') then
        match peek[2]? with
        | none => return single LessThan pos
        | some d =>
          if d = ch '.' then
            if peek[3]? = some (ch '-') ∧ peek[4]? = some (ch '-') ∧ peek[5]? = some (ch '>') then
              return ⟨CalloutNumber, pos - 1, pos + 7, pos + 7⟩
            else return single LessThan pos
          else if isDigit d then return xmlCallout pos (peek.drop 3)
          else return single LessThan pos
      else return single LessThan pos
    else return single LessThan pos

/-- `source_lexer.rs:630-646` — `finish_entity` -/
def finishEntity (src : List UInt8) (pos initial : Nat) (f : UInt8 → Bool) : Step :=
  let e := scan f src (pos + initial)
  if pos + initial < e ∧ src[e]? = some (ch ';') then
    if 1 ≤ pos - 1 ∧ src[pos - 1 - 1]? = some (ch '\\') then single Ampersand pos
    else ⟨Entity, pos - 1, e + 1, e + 1⟩
  else single Ampersand pos

/-- `source_lexer.rs:615-628` — `maybe_entity` -/
def maybeEntity (src : List UInt8) (pos : Nat) : Step :=
  if src[pos]? = some (ch '#') ∧ (src[pos + 1]?.any isDigit) = true then finishEntity src pos 1 isDigit
  else if src[pos]? = some (ch '#') ∧ src[pos + 1]? = some (ch 'x') then finishEntity src pos 2 isHex
  else if (src[pos]?.any isAlpha) = true then finishEntity src pos 1 isAlnum
  else single Ampersand pos

/-- the one-byte and repeated-byte arms of `source_lexer.rs:63-93` -/
inductive Simple where
  | one (k : TokenKind)
  | run (k : TokenKind)

/-- `source_lexer.rs:63-93` — table of the simple arms -/
def simpleTable : List (UInt8 × Simple) :=
  [(ch '=', .run EqualSigns), (ch '-', .run Dashes), (10, .one Newline), (ch '>', .one GreaterThan),
   (ch ',', .one Comma), (ch '^', .one Caret), (ch '~', .one Tilde), (ch '_', .one Underscore),
   (ch '*', .one Star), (ch '.', .run Dots), (ch '/', .run ForwardSlashes), (ch '!', .one Bang),
   (ch '?', .one QuestionMark), (ch '`', .one Backtick), (ch '+', .one Plus), (ch '[', .one OpenBracket),
   (ch ']', .one CloseBracket), (ch '}', .one CloseBrace), (ch '#', .one Hash), (ch '%', .one Percent),
   (ch '"', .one DoubleQuote), (ch '(', .run OpenParens), (ch ')', .run CloseParens), (ch '|', .one Pipe),
   (ch '\'', .one SingleQuote), (ch '\\', .one Backslash)]

/-- `source_lexer.rs:66` -/
def isSpace (b : UInt8) : Bool := b == 32 || b == 9 || b == 0x0B || b == 0x0C

/-- `source_lexer.rs:98-109` — three byte characters that are tokens of their own -/
def punct3 : List (List UInt8) :=
  [[0xE2, 0x80, 0xAF], [0xE2, 0x80, 0x87], [0xE2, 0x80, 0x98], [0xE2, 0x80, 0x99], [0xE2, 0x80, 0x9C],
   [0xE2, 0x80, 0x9D], [0xE2, 0x81, 0xA0], [0xE3, 0x80, 0x80], [0xEF, 0xBB, 0xBF]]

/-- `source_lexer.rs:66-115` — the other arms of `next_token`; `pos` is already past the byte `b` -/
def otherArm (src : List UInt8) (plugins : List (List UInt8)) (pos : Nat) (b : UInt8) (lineStart : Bool) :
    Option Step :=
  if isSpace b then some (repeating Whitespace isSpace src pos)
  else if b = ch '&' then some (maybeEntity src pos)
  else if b = ch '<' then maybeCalloutNumber src pos
  else if b = ch '{' then maybeAttrRef src pos
  else if b = 13 ∧ src[pos]? = some 10 then some (codepoint Newline 2 pos)
  else if isDigit b then some (repeating Digits isDigit src pos)
  else if b = ch ';' ∨ b = ch ':' then maybeTermDelimiter src pos b lineStart
  else if b = 0xC2 ∧ src[pos]? = some 0xA0 then some (codepoint Punctuation 2 pos)
  else if b = 0xE3 ∨ b = 0xEF ∨ b = 0xE2 then
    if punct3.contains (b :: (peekBytes src pos 2).getD []) then some (codepoint Punctuation 3 pos)
    else word src plugins pos
  else if b = 0x1B ∧ peekBytes src pos 4 = some (bs "ass:") then some (codepoint AttrPassDbl 5 pos)
  else word src plugins pos

/-- `source_lexer.rs:56-117` — `next_token`. Outer `none`: panic; inner `none`: end of the source. The result
carries the new position. -/
def nextToken (src : List UInt8) (plugins : List (List UInt8)) (pos : Nat) : Option (Option Step × Nat) :=
  let ret (s : Step) : Option Step × Nat := (some s, s.pos)
  match atDelimiterLine src pos with
  | some (len, _) => some (ret ⟨DelimiterLine, pos, pos + len, pos + len⟩)
  | none =>
    match src[pos]? with
    | none => some (none, pos + 1)
    | some b =>
      match simpleTable.lookup b with
      | some (.one k) => some (ret (single k (pos + 1)))
      | some (.run k) => some (ret (repeating k (· == b) src (pos + 1)))
      | none => (otherArm src plugins (pos + 1) b (atLineStart src pos)).map ret

/-- a token with its lexeme (`parser/src/token.rs:6-12`, `source_lexer.rs:380-392`) -/
structure Tok where
  kind : TokenKind
  start : Nat
  stop : Nat
  lexeme : List UInt8
deriving DecidableEq, Repr

/-- Calling `next_token` until it returns `None` (as `root_lexer.rs:289-323` does for one source), at most
`fuel` times. `none`: panic. The flag says that the end was reached. -/
def lexFrom (src : List UInt8) (plugins : List (List UInt8)) (offset : Nat) : Nat → Nat → Option (List Tok × Bool)
  | 0, _ => some ([], false)
  | fuel + 1, pos => do
    let (t, pos') ← nextToken src plugins pos
    match t with
    | none => return ([], true)
    | some s =>
      let lexeme ← if s.stop = s.start then some [] else slice src s.start s.stop
      let (rest, done) ← lexFrom src plugins offset fuel pos'
      return (⟨s.kind, s.start + offset, s.stop + offset, lexeme⟩ :: rest, done)

end Lexer
end Verif

namespace Verif.Lexer

/-- the loop body of `source_lexer.rs:248-261`: (line, column) after one more byte -/
def lineStep (a : Nat × Nat) (b : UInt8) : Nat × Nat := if b = 10 then (a.1 + 1, 0) else (a.1, a.2 + 1)

/-- `source_lexer.rs:248-261` — `line_number_with_offset` (location relative to the source); `none`: index out
of bounds -/
def lineNumberWithOffset (src : List UInt8) (location : Nat) : Option (Nat × Nat) :=
  if location ≤ src.length then some ((src.take location).foldl lineStep (1, 0)) else none

/-- first loop of `source_lexer.rs:223-246`: move back to just after a newline -/
def lineStartOf (src : List UInt8) : Nat → Nat
  | 0 => 0
  | n + 1 => if src[n]? = some 10 then n + 1 else lineStartOf src n

/-- `str::trim_ascii_end` -/
def trimAsciiEnd (l : List UInt8) : List UInt8 := (l.reverse.dropWhile isWs).reverse

/-- `source_lexer.rs:223-246` — `line_of` (location relative to the source). The second loop is `scan`. -/
def lineOf (src : List UInt8) (location : Nat) : Option (List UInt8) := do
  if location > src.length then none  -- `self.src[start - 1]` is out of bounds
  let stop := scan (fun b => !(b == 13 || b == 10)) src location
  let line ← slice src (lineStartOf src location) stop
  return trimAsciiEnd line

/-- `source_lexer.rs:687-705` — `LinesIter::next` until `None`, as a list of lines -/
def rawLines (src : List UInt8) : List (List UInt8) :=
  match src with
  | [] => []
  | b :: bs =>
    let line := (b :: bs).takeWhile (· != 10)
    line :: rawLines ((b :: bs).drop (line.length + 1))
termination_by src.length
decreasing_by simp only [List.length_drop, List.length_cons]; omega

/-- `source_lexer.rs:119-123` — `str_from_loc` (bytes) for a location `start..stop` -/
def strFromLoc (src : List UInt8) (offset start stop : Nat) : Option (List UInt8) :=
  if offset ≤ start ∧ offset ≤ stop then slice src (start - offset) (stop - offset) else none

end Verif.Lexer

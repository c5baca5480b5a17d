import Verif.Model.Verbatim
import Verif.Model.Regex
import Verif.Model.Lists
import Verif.Model.Sections
/-!
What a line of a source is, decided by its first (and last) tokens: headings, list items, block titles, attribute lists, comment
lines, breaks. Models the predicates of `parser/src/line.rs` (218-330, 345-351, 409-411, 758-847) and the order in which
`parser/src/tasks/parse_block.rs:6-195` asks them.

Simplifications: a line is a list of tokens as the lexer gives them (`Model/Lexer.lean`); joining the tokens of an e-mail address
(`line.rs:78-140`, `Model/Email.lean`) is left out, so that lines with an `@` are out of the model. Lines with `{` (attribute
references), lines that start with `:` and directive lines are out of the model too. Lines are not partly consumed.
-/
namespace Verif.LineKinds
open Verif Verif.Lexer Verif.Directives Verif.Verbatim
open Verif.Regex (Re)

/-- the kind of the token at a position (`nth_token(n).kind`) -/
def kindAt (l : List Tok) (n : Nat) : Option TokenKind := l[n]?.map Tok.kind

/-- `line.rs:417-419` — `starts_with_seq`, for kinds -/
def startsSeq (ks : List TokenKind) (l : List Tok) : Bool := ks.isPrefixOf (l.map Tok.kind)

/-- `line.rs:425-427` — `contains_seq`, for kinds -/
def containsSeq (ks : List TokenKind) : List Tok → Bool
  | [] => false
  | t :: ts => startsSeq ks (t :: ts) || containsSeq ks ts

/-- `line.rs:218-220` — `num_tokens_before_trailing_whitespace` -/
def trimmedCount (l : List Tok) : Nat := if l.getLast?.map Tok.kind = some .Whitespace then l.length - 1 else l.length

/-- `line.rs:230-247` — `unadjusted_heading_level`; the level is a `u8` -/
def headingLevel (l : List Tok) : Option Nat :=
  if startsSeq [.EqualSigns, .Whitespace] l && decide (2 < l.length) then (l[0]?).map fun t => (t.lexeme.length - 1) % 256
  else if kindAt l 0 = some .Hash && containsSeq [.Hash, .Whitespace] l && decide (2 < l.length) then
    let n := (l.takeWhile fun t => t.kind == .Hash).length
    if decide (n + 1 < l.length) && kindAt l n = some .Whitespace then some ((n - 1) % 256) else none
  else none

/-- the text of a heading: what is left when `parse_section.rs:68-84` has consumed the marks and the white space -/
def headingText (l : List Tok) : List Char :=
  lineText ((l.dropWhile fun t => t.kind == .EqualSigns || t.kind == .Hash).drop 1)

/-- `line.rs:409-411` — `is_comment` -/
def isComment (l : List Tok) : Bool := (l[0]?).any fun t => t.kind == .ForwardSlashes && t.lexeme.length == 2

/-- `line.rs:345-351` — `ends_with_nonescaped` -/
def endsNonescaped (k : TokenKind) (l : List Tok) : Bool :=
  match l.length with
  | 0 => false
  | 1 => kindAt l 0 == some k
  | n + 2 => kindAt l (n + 1) == some k && kindAt l n != some .Backslash

/-- `line.rs:268-273` — `is_block_attr_list` -/
def isAttrList (l : List Tok) : Bool :=
  kindAt l 0 == some .OpenBracket && endsNonescaped .CloseBracket l && kindAt l 1 != some .OpenBracket

/-- `line.rs:287-292` — `is_chunk_title` -/
def isTitle (l : List Tok) : Bool :=
  ((l[0]?).any fun t => t.kind == .Dots && t.lexeme.length == 1) && decide (1 < l.length) && kindAt l 1 != some .Whitespace

/-- `line.rs:303-305` — `is_any_delimiter` -/
def isAnyDelim (l : List Tok) : Bool := l.length == 1 && ((l.head?.bind toDelimKind).isSome)

/-- `line.rs:845-847` — `is_list_continuation` -/
def isContinuation (l : List Tok) : Bool := l.length == 1 && kindAt l 0 == some .Plus

/-- `core/src/regx.rs:44` — `REPEAT_STAR_LI_START`: `^\s?(\*+)( |\t)+.+` -/
def repeatStar : Re :=
  .seq .bol (.seq (.opt (.set Regex.space)) (.seq (.cap 1 (.plus (.ch '*')))
    (.seq (.plus (.set fun c => c = ' ' || c = '\t')) (.plus (.set fun c => c ≠ '\n')))))

/-- the value of decimal digits -/
def decimal (l : List UInt8) : Nat := l.foldl (fun n d => n * 10 + (d.toNat - 48)) 0

/-- `token.rs:130-145` — `parse_callout_num`; the number is a `u8` -/
def calloutNum (t : Tok) : Option Nat :=
  let ds := t.lexeme.filter isDigit
  if ds.isEmpty then none else if decimal ds ≤ 255 then some (decimal ds) else none

/-- the first delimiter after a term -/
def termMarker : List Tok → Option Lists.Marker
  | [] => none
  | t :: ts =>
    if t.kind = .TermDelimiter then
      (if t.lexeme = bs "::" then some (.colons 2) else if t.lexeme = bs ":::" then some (.colons 3)
        else if t.lexeme = bs "::::" then some (.colons 4) else some .semicolons)
    else termMarker ts

/-- `line.rs:758-821` — the `match` of `list_marker`, on the tokens from the first that is no white space; `whole` is the line -/
def markerAt (word : Char → Bool) (whole : List Tok) : List Tok → Option Lists.Marker
  | [] => none
  | t :: l =>
    let second := kindAt l 0
    let third := l[1]?
    if t.kind = .Star && second = some .Whitespace && third.isSome &&
        !(trimmedCount (t :: l) = 5 && kindAt l 1 = some .Star && kindAt l 2 = some .Whitespace && kindAt l 3 = some .Star) then
      some (.star 1)
    else if t.kind = .Dots && second = some .Whitespace && third.isSome then some (.dot (t.lexeme.length % 256))
    else if t.kind = .Dashes && second = some .Whitespace && t.lexeme.length = 1 &&
        third.any (fun u => !(u.kind == .Dashes && u.lexeme.length == 1)) then some .dash
    else if t.kind = .Star && second = some .Star then
      (Regex.captures word repeatStar (lineText whole)).bind fun m => (m.group 1).map fun g => .star (g.length % 256)
    else if t.kind = .CalloutNumber && second = some .Whitespace && t.lexeme[1]? ≠ some (ch '!') then some (.callout (calloutNum t))
    else if t.kind = .Digits && second = some .Dots && third.map Tok.kind = some .Whitespace then
      (if decimal t.lexeme ≤ 65535 then some (.digits (decimal t.lexeme)) else none)
    else if t.kind = .TermDelimiter then none
    else termMarker (t :: l)

/-- `line.rs:758-821` — `list_marker` -/
def listMarker (word : Char → Bool) (l : List Tok) : Option Lists.Marker :=
  if isComment l || kindAt l 0 = some .EqualSigns then none
  else markerAt word l (if kindAt l 0 = some .Whitespace then l.drop 1 else l)

/-- the kinds of breaks (`parse_block.rs:137-183`) -/
inductive Break where
  | thematic
  | page
deriving DecidableEq, Repr

/-- all of the tokens have this kind and length -/
def tok1 (t : Tok) (k : TokenKind) (n : Nat) : Bool := t.kind == k && t.lexeme.length == n

/-- `parse_block.rs:137-183` — lines that are breaks -/
def breakOf (l : List Tok) : Option Break :=
  let three (k : TokenKind) : Bool := trimmedCount l == 3 && startsSeq [k, k, k] l
  let five (k : TokenKind) (len : Bool) : Bool := trimmedCount l == 5 && startsSeq [k, .Whitespace, k, .Whitespace, k] l &&
    ((l[1]?).any (·.lexeme.length == 1)) && ((l[3]?).any (·.lexeme.length == 1)) &&
    (!len || ([0, 2, 4].all fun i => (l[i]?).any (·.lexeme.length == 1)))
  if three .SingleQuote || three .Star then some .thematic
  else if ((l[0]?).any fun t => tok1 t .Dashes 3) && trimmedCount l == 1 then some .thematic
  else if five .Dashes true || five .Star false then some .thematic
  else if three .LessThan then some .page
  else none

/-- what an item of a list is written with after its marker: the tokens after the white space behind the marker
(`parse_list.rs:71-79`). A check box (`[x]`) is left in the text. -/
def itemRest (l : List Tok) : List Tok :=
  let l := if kindAt l 0 = some .Whitespace then l.drop 1 else l
  (l.dropWhile fun t => t.kind != .Whitespace).drop 1

/-- the term of a description list and what follows it on the line (`parse_list.rs:235-248`) -/
def termParts (l : List Tok) : List Tok × List Tok :=
  let l := l.dropWhile fun t => t.kind == .Whitespace
  (l.takeWhile (fun t => t.kind != .TermDelimiter),
    ((l.dropWhile fun t => t.kind != .TermDelimiter).drop 1).dropWhile fun t => t.kind == .Whitespace)

/-- The line as the list parser sees it (`Model/Lists.lean`); `none`: comments, block titles, headings, breaks, delimiters other
than `====`, lines with an admonition label (`NOTE: …`), which that model does not have, and the lines that are out of the model. -/
def classify (word : Char → Bool) (l : List Tok) : Option Lists.Ln :=
  if !inModel (lineText l) || (lineText l).contains '@' || kindAt l 0 = some .Directive then none
  else match listMarker word l with
    | some m =>
      if m.isDescription then
        let (t, r) := termParts l
        some (.term m (lineText t) (if r.isEmpty then none else some (lineText r)))
      else some (.item m (lineText (itemRest l)))
    | none =>
      if isComment l || isTitle l || (headingLevel l).isSome || (breakOf l).isSome || startsSeq [.Word, .Colon, .Whitespace] l then none
      else if isContinuation l then some .plus
      else if kindAt l 0 = some .Plus then some (.plusText (lineText l))
      else if isAttrList l then some (.attrs (lineText l))
      else if isAnyDelim l then (if (l.head?.bind toDelim) = some ⟨.example_, 4⟩ then some .delim else none)
      else if kindAt l 0 = some .Word || kindAt l 0 = some .Digits then some (.text (lineText l))
      else none

/-- what is said about each line of a source -/
def eachLine {α : Type} (f : List Tok → α) (plugins : List (List UInt8)) (src : List UInt8) : Option (List α) :=
  (lexLines src plugins (src.length + 1) 0).map (·.map f)

/-- the headings of a source: the level and the text of each line that is one (`line.rs:230-247`, `parse_section.rs:68-84`) -/
def headings : List (List UInt8) → List UInt8 → Option (List (Option (Nat × List Char))) :=
  eachLine fun l => (headingLevel l).map fun n => (n, headingText l)

/-- the chunks of a source, one after the other (`parser.rs:156-192` — `read_lines`) -/
def chunksOf : Nat → List (List Tok) → List (List (List Tok))
  | 0, _ => []
  | n + 1, lines =>
    match readLines [] lines with
    | none => []
    | some (chunk, rest) => chunk :: chunksOf n rest

/-- a list of results, if all are there -/
def allSome {α β : Type} (f : α → Option β) : List α → Option (List β)
  | [] => some []
  | a :: l => (f a).bind fun b => (allSome f l).map (b :: ·)

/-- a source text as the list parser sees it -/
def listChunks (plugins : List (List UInt8)) (word : Char → Bool) (src : List UInt8) : Option (List (List Lists.Ln)) :=
  (lexLines src plugins (src.length + 1) 0).bind fun lines =>
    allSome (allSome (classify word)) (chunksOf (lines.length + 1) lines)

/-- a source text of paragraphs and lists, parsed (`parser.rs:292-304`) -/
def readLists (plugins : List (List UInt8)) (word : Char → Bool) (src : List UInt8) (n : Nat) : Option (List Lists.Block × Lists.St) :=
  (listChunks plugins word src).bind fun chunks => Lists.parseDoc n chunks

end Verif.LineKinds

import Verif.Model.Inlines
/-!
Specification: formatted phrases and how they are written.

A text is a list of pieces. A piece is plain text or a phrase between two marks, which holds pieces again. The rules for
the marks are those of the AsciiDoc language for constrained pairs: the opening mark stands at the start or after white
space or a comma and before something that is not white space; the closing mark stands after something that is not white
space and at the end or before white space or punctuation.
-/
namespace Verif.Inlines

/-- the kinds of formatted phrases -/
inductive Mark where
  | bold | italic | mono | highlight
deriving DecidableEq, Repr

/-- the character before and after the phrase -/
def Mark.char : Mark → Char
  | .bold => '*'
  | .italic => '_'
  | .mono => '`'
  | .highlight => '#'

/-- the kind of the node -/
def Mark.span : Mark → Span
  | .bold => .bold
  | .italic => .italic
  | .mono => .mono
  | .highlight => .highlight

/-- plain text, or a phrase -/
inductive Ph where
  | text (s : List Char)
  | span (m : Mark) (ch : List Ph)

mutual
/-- how a piece is written -/
def Ph.written : Ph → List Char
  | .text s => s
  | .span m ch => m.char :: (writtenAll ch ++ [m.char])
/-- how pieces are written -/
def writtenAll : List Ph → List Char
  | [] => []
  | p :: ps => p.written ++ writtenAll ps
end

/-- a node for text, if there is any -/
def leafOf (s : List Char) : List Node := if s = [] then [] else [.leaf (.text s)]

/-- text is shown as text, with a node for each line end; `seg` is the part of the line read so far -/
def textNodes (seg : List Char) : List Char → List Node
  | [] => leafOf seg
  | c :: cs => if c = '\n' then leafOf seg ++ .leaf .newline :: textNodes [] cs else textNodes (seg ++ [c]) cs

mutual
/-- the nodes of a piece -/
def Ph.shown : Ph → List Node
  | .text s => textNodes [] s
  | .span m ch => [.wrap (.span m.span none) (shownAll ch)]
/-- the nodes of pieces -/
def shownAll : List Ph → List Node
  | [] => []
  | p :: ps => p.shown ++ shownAll ps
end

/-- a space or a line end -/
def isGap (c : Char) : Bool := c = ' ' || c = '\n'

/-- digits -/
def isDigitChar (c : Char) : Bool := 48 ≤ c.toNat && c.toNat ≤ 57

/-- letters and digits -/
def isWordChar (c : Char) : Bool :=
  (97 ≤ c.toNat && c.toNat ≤ 122) || (65 ≤ c.toNat && c.toNat ≤ 90) || (48 ≤ c.toNat && c.toNat ≤ 57)

/-- characters of plain text -/
def isPlain (c : Char) : Bool := isWordChar c || isGap c || ",.!?".toList.contains c

/-- no two spaces or line ends and no two dots in a row -/
def noRuns : List Char → Bool
  | a :: b :: r => !(isGap a && isGap b) && !(a = '.' && b = '.') && noRuns (b :: r)
  | _ => true

/-- what may stand between two pieces: text before a phrase ends with white space or a comma, text after it starts with
white space or punctuation, phrases do not touch -/
def joins : Ph → Ph → Bool
  | .text s, .span _ _ => s.getLast?.any (fun c => isGap c || c = ',')
  | .span _ _, .text s => s.head?.any (fun c => isGap c || ",.!?".toList.contains c)
  | _, _ => false

/-- the pieces do not start with white space -/
def startsWell : Option Ph → Bool
  | some (.text s) => !s.head?.any isGap
  | _ => true
/-- the pieces do not end with white space -/
def endsWell : Option Ph → Bool
  | some (.text s) => !s.getLast?.any isGap
  | _ => true

mutual
/-- a piece inside phrases of the kinds `outer` is well formed -/
def Ph.wf (outer : List Mark) : Ph → Bool
  | .text s => !s.isEmpty && s.all isPlain && noRuns s
  | .span m ch => !outer.contains m && !ch.isEmpty && startsWell ch.head? && endsWell ch.getLast? && wfAll (m :: outer) ch
/-- pieces inside phrases of the kinds `outer` are well formed -/
def wfAll (outer : List Mark) : List Ph → Bool
  | [] => true
  | p :: ps => p.wf outer && (match ps with | [] => true | q :: _ => joins p q) && wfAll outer ps
end

/-- a paragraph of well formed pieces -/
def WellFormed (ps : List Ph) : Prop := wfAll [] ps = true ∧ startsWell ps.head? = true ∧ endsWell ps.getLast? = true

/-! ### marks that are only text -/

/-- letters -/
def isLetter (c : Char) : Bool := isWordChar c && !isDigitChar c

/-- A mark in the text can close a phrase: it stands after something that is not white space and not before a letter; `p` is
the character before the text. -/
def closes (m : Mark) (p : Char) : List Char → Bool
  | [] => false
  | c :: cs => (c = m.char && !isGap p && !cs.head?.any isLetter) || closes m c cs

/-- There are two marks in the text that may open and close a phrase: the first stands neither after a letter or digit nor
before a space. -/
def formats (m : Mark) (p : Option Char) : List Char → Bool
  | [] => false
  | c :: cs =>
    (c = m.char && !p.any isWordChar && (match cs with | d :: ds => d != ' ' && closes m d ds | [] => false)) || formats m (some c) cs

/-- no two spaces or line ends and no two dots or equal marks in a row -/
def noDoubles : List Char → Bool
  | a :: b :: r => !(isGap a && isGap b) && !(a = b && ".*_`#".toList.contains a) && noDoubles (b :: r)
  | _ => true

/-- Plain text and marks, but no phrase; `p` is the character before the text. -/
def unformatted (p : Option Char) (s : List Char) : Bool :=
  s.all (fun c => isPlain c || "*_`#".toList.contains c) && noDoubles s && [.bold, .italic, .mono, .highlight].all (fun m => !formats m p s)

/-- `x` between two marks is a phrase and there is no other phrase in `x` and none in the rest `y` of the line; there may be
a mark in `x` and one in `y` that would make a phrase if they were not on different sides of the end of the first. -/
def overlaps (m : Mark) (x y : List Char) : Bool :=
  unformatted (some m.char) x && unformatted (some m.char) y && !x.contains m.char && !x.isEmpty && !x.head?.any isGap && !x.getLast?.any isGap &&
    !y.head?.any (fun c => isWordChar c || c = m.char) && !y.contains '\n'

instance (ps : List Ph) : Decidable (WellFormed ps) := by unfold WellFormed; infer_instance

/-! ### tokens of written phrases -/

open TokenKind

/-- the kinds of the tokens that are one character -/
def otherKind (c : Char) : Option TokenKind :=
  if c = ' ' then some Whitespace
  else if c = '\n' then some Newline
  else if c = ',' then some Comma
  else if c = '.' then some Dots
  else if c = '!' then some Bang
  else if c = '?' then some QuestionMark
  else if c = '*' then some Star
  else if c = '_' then some Underscore
  else if c = '`' then some Backtick
  else if c = '#' then some Hash
  else none

/-- a token of a written phrase -/
structure OkTok (t : Tok) : Prop where
  attr : t.attr = false
  shape : ((t.kind = Word ∨ t.kind = Digits) ∧ t.lexeme ≠ [] ∧ ∀ c ∈ t.lexeme, isWordChar c = true) ∨
    ∃ c, t.lexeme = [c] ∧ otherKind c = some t.kind
  digits : t.kind = Digits → ∀ c ∈ t.lexeme, isDigitChar c = true

/-- each token knows the character before it -/
def Chained (prev : Option Char) : List Tok → Prop
  | [] => True
  | t :: ts => t.before = prev ∧ Chained t.lexeme.getLast? ts

end Verif.Inlines

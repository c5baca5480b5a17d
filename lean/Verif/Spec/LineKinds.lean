import Verif.Model.Lexer
import Verif.Model.Lists
import Verif.Spec.DirText
/-!
Specification: what the lines of a source are, by what they look like. Lines are bytes, or characters, without the line end.
-/
namespace Verif.LineKinds
open Verif Verif.Lexer

/-- white space in a line: blanks, tabs, vertical tabs and form feeds -/
def Blank (s : List UInt8) : Prop := ∀ x ∈ s, x = 32 ∨ x = 9 ∨ x = 11 ∨ x = 12

/-- the text does not start with white space -/
def Tight (s : List UInt8) : Prop := ∀ x, s.head? = some x → ¬ (x = 32 ∨ x = 9 ∨ x = 11 ∨ x = 12)

/-- `== Title`: one mark more than the level, white space, and the title -/
def Heading (line : List UInt8) (level : Nat) (title : List UInt8) : Prop :=
  ∃ mark ∈ [ch '=', ch '#'], ∃ sp, line = List.replicate (level + 1) mark ++ sp ++ title ∧ sp ≠ [] ∧ Blank sp ∧ title ≠ [] ∧ Tight title

/-- `// …`: two slashes, and no third one -/
def Comment (line : List UInt8) : Prop := ∃ rest, line = bs "//" ++ rest ∧ rest.head? ≠ some (ch '/')

/-- `.Title`: a dot, and no second one or white space after it -/
def Title (line title : List UInt8) : Prop := line = ch '.' :: title ∧ title ≠ [] ∧ Tight title ∧ title.head? ≠ some (ch '.')

/-- a line that is this text, with white space after it -/
def Alone (line core : List UInt8) : Prop := ∃ sp, line = core ++ sp ∧ Blank sp

/-- `'''`, `***`, `---`, `* * *` and `- - -` -/
def ThematicBreak (line : List UInt8) : Prop :=
  (∃ core ∈ [bs "'''", bs "***", bs "---"], Alone line core) ∨
    ∃ c ∈ [ch '*', ch '-'], ∃ s s', Blank [s, s'] ∧ Alone line [c, s, c, s', c]

/-- `<<<` -/
def PageBreak (line : List UInt8) : Prop := Alone line (bs "<<<")

/-! ### list items -/

/-- the value of decimal digits -/
def number (ds : List Char) : Nat := ds.foldl (fun n d => n * 10 + (d.toNat - '0'.toNat)) 0

/-- the characters of the marker of an item -/
inductive Mark : Lists.Marker → List Char → Prop where
  | dash : Mark .dash ['-']
  | star {n} : 0 < n → n < 256 → Mark (.star n) (List.replicate n '*')
  | dot {n} : 0 < n → n < 256 → Mark (.dot n) (List.replicate n '.')
  | digits {ds} : ds ≠ [] → (∀ d ∈ ds, d.isDigit = true) → number ds < 65536 → Mark (.digits (number ds)) (ds ++ ['.'])
  | callout {ds} : ds ≠ [] → (∀ d ∈ ds, d.isDigit = true) → number ds < 256 → Mark (.callout (some (number ds))) ('<' :: ds ++ ['>'])
  | auto : Mark (.callout none) ['<', '.', '>']

def whites : List Char := [' ', '\t', '\x0b', '\x0c']

/-- A list item: white space, the marker, white space, and the text. -/
structure ItemLine (line indent mark gap text : List Char) (m : Lists.Marker) : Prop where
  split : line = indent ++ mark ++ gap ++ text
  marker : Mark m mark
  indented : ∀ c ∈ indent, c = ' ' ∨ c = '\t'
  apart : gap ≠ [] ∧ ∀ c ∈ gap, c = ' ' ∨ c = '\t'
  body : text ≠ [] ∧ ∀ c, text.head? = some c → c ∉ whites
  /-- one line, without attribute references and e-mail addresses -/
  chars : ∀ c ∈ text, c ∉ ['\n', '\r', '{', '@']
  /-- `**` and longer markers may stand behind one blank only -/
  depth : ∀ n, m = .star (n + 2) → indent.length ≤ 1
  /-- `* * *` is a break -/
  noBreak : m = .star 1 → ∀ g e, text = '*' :: g ++ '*' :: e → g ≠ [] → ¬ ∀ c ∈ g ++ e, c ∈ whites
  /-- the text after a `-` does not start with a `-` of its own -/
  noDash : m = .dash → text.head? = some '-' → text[1]? = some '-'

/-- the marks that are read as a marker: the depth is counted up to 256, a number may have more than one dot after it, and the
number of a callout that is too large is no number -/
inductive Taken : Lists.Marker → List Char → Prop where
  | dash : Taken .dash ['-']
  | star {n} : 0 < n → Taken (.star (n % 256)) (List.replicate n '*')
  | dot {n} : 0 < n → Taken (.dot (n % 256)) (List.replicate n '.')
  | digits {ds n} : ds ≠ [] → (∀ d ∈ ds, d.isDigit = true) → number ds < 65536 → 0 < n → Taken (.digits (number ds)) (ds ++ List.replicate n '.')
  | callout {ds} : ds ≠ [] → (∀ d ∈ ds, d.isDigit = true) → Taken (.callout (if number ds < 256 then some (number ds) else none)) ('<' :: ds ++ ['>'])
  | auto : Taken (.callout none) ['<', '.', '>']

def letters : List Char := "abcdefghijklmnopqrstuvwxyzABCDEFGHIJKLMNOPQRSTUVWXYZ".toList

/-- A line of text: it starts with a letter, there is no colon in its first word, and neither `::` nor `;;` in the line. -/
structure TextLine (line : List Char) : Prop where
  first : ∃ c ∈ letters, line.head? = some c
  chars : ∀ c ∈ line, c ∉ ['\n', '\r', '{', '@']
  word : ':' ∉ line.takeWhile (· ≠ ' ')
  colons : ¬ [':', ':'] <:+: line
  semicolons : ¬ [';', ';'] <:+: line

/-- how a line of a list is written -/
inductive Spelled : List Char → Lists.Ln → Prop where
  | item {line indent mark gap text m} : ItemLine line indent mark gap text m → Spelled line (.item m text)
  | text {line} : TextLine line → Spelled line (.text line)

/-- The lines of a text, by the chunks that empty lines make of it. -/
inductive Laid : List (List (List Char)) → List (List Char) → Prop where
  | nil : Laid [] []
  | blank {chunks lines} : Laid chunks lines → Laid chunks ([] :: lines)
  | last {chunk} : chunk ≠ [] → Laid [chunk] chunk
  | cons {chunk chunks lines} : chunk ≠ [] → Laid chunks lines → Laid (chunk :: chunks) (chunk ++ [] :: lines)

end Verif.LineKinds

import Verif.Spec.LineKinds
import Verif.Model.Paragraphs
/-!
Specification: how paragraphs are written, and what is shown of them. Lines are characters, without the line end.
-/
namespace Verif.Paragraphs
open Verif Verif.LineKinds Verif.Directives

/-- what is shown of a paragraph: the lines of its text -/
inductive Shown where
  | text (k : Kind) (lines : List (List Char))
  | quoted (quote who : List (List Char)) (cite : Option (List (List Char)))
  | quotes (inner : List Shown)

mutual
/-- two paragraphs are shown the same -/
def Shown.same : Shown → Shown → Bool
  | .text k a, .text l b => k == l && a == b
  | .quoted a b c, .quoted d e f => a == d && b == e && c == f
  | .quotes a, .quotes b => sameAll a b
  | _, _ => false
def sameAll : List Shown → List Shown → Bool
  | [], [] => true
  | a :: as, b :: bs => a.same b && sameAll as bs
  | _, _ => false
end

/-- the text of lines of tokens -/
def texts (ls : List Line) : List (List Char) := ls.map fun l => lineText l.toks

mutual
def Para.shown : Para → Shown
  | .text k ls => .text k (texts ls)
  | .quoted q w c => .quoted (texts q) (texts w) (c.map texts)
  | .quotes ps => .quotes (shownAll ps)
def shownAll : List Para → List Shown
  | [] => []
  | p :: ps => p.shown :: shownAll ps
end

/-- the labels of admonitions -/
def Admonition.label : Admonition → List Char
  | .caution => "CAUTION".toList
  | .important => "IMPORTANT".toList
  | .note => "NOTE".toList
  | .tip => "TIP".toList
  | .warning => "WARNING".toList

/-- the styles of paragraphs -/
def styles : List (List Char × Kind) :=
  [("sidebar".toList, .sidebar), ("quote".toList, .quote), ("listing".toList, .listing), ("source".toList, .listing), ("literal".toList, .literal),
    ("pass".toList, .pass), ("verse".toList, .verse), ("example".toList, .example_), ("normal".toList, .paragraph),
    ("CAUTION".toList, .admonition .caution), ("IMPORTANT".toList, .admonition .important), ("NOTE".toList, .admonition .note),
    ("TIP".toList, .admonition .tip), ("WARNING".toList, .admonition .warning)]

/-- characters that are in the text: one line, without attribute references and e-mail addresses -/
def Chars (s : List Char) : Prop := ∀ c ∈ s, c ∉ ['\n', '\r', '{', '@']

/-- no term of a description list, and no directive -/
def NoTerm (s : List Char) : Prop := ¬ [':', ':'] <:+: s ∧ ¬ [';', ';'] <:+: s

/-- the text starts with something, and not with white space or a bracket -/
def Starts (s : List Char) : Prop := ∃ c, s.head? = some c ∧ c ∉ '[' :: whites

/-- a further line of a paragraph -/
structure More (line : List Char) : Prop where
  first : ∃ c, line.head? = some c ∧ c ∉ "[:-_*=.+/`".toList ++ whites
  chars : Chars line
  colons : ¬ [':', ':'] <:+: line

/-- a line is put around the quote: a quotation mark before the first line and one behind the last line -/
def inMarks : List (List Char) → List (List Char)
  | [] => []
  | l :: ls => match ('"' :: l) :: ls with
    | ls => ls.dropLast ++ [(ls.getLast?.getD []) ++ ['"']]

/-- where it was said -/
def citing : Option (List Char) → List Char
  | none => []
  | some c => ", ".toList ++ c

/-- who said it and where -/
def credit (who : List Char) (cite : Option (List Char)) : List Char := "-- ".toList ++ who ++ citing cite

/-- a name or a title in the line behind a quote -/
structure Credit (who : List Char) (cite : Option (List Char)) : Prop where
  who : Starts who ∧ Chars who ∧ ',' ∉ who ∧ ¬ [':', ':'] <:+: who
  cite : ∀ c, cite = some c → Starts c ∧ Chars c ∧ ¬ [':', ':'] <:+: c

/-- lines in a quote in the style of Markdown -/
def marked (ls : List (List Char)) : List (List Char) := ls.map ("> ".toList ++ ·)

/-- paragraphs, with a line with a mark only between two of them -/
def markedAll : List (List (List Char)) → List (List Char)
  | [] => []
  | [p] => marked p
  | p :: ps => marked p ++ ['>'] :: markedAll ps

/-- the lines of a paragraph of text -/
def Lines : List (List Char) → Prop
  | [] => False
  | l :: ls => TextLine l ∧ ∀ m ∈ ls, More m

/-- How a paragraph is written, and what is shown. -/
inductive Written : List (List Char) → Shown → Prop where
  /-- text is a paragraph -/
  | plain {ls} : Lines ls → Written ls (.text .paragraph ls)
  /-- `NOTE: text`: an admonition, without the label -/
  | label {a text ls} : Starts text → Chars text → NoTerm text → (∀ m ∈ ls, More m) →
      Written ((a.label ++ ": ".toList ++ text) :: ls) (.text (.admonition a) (text :: ls))
  /-- lines that are indented by the same number of blanks: literal text, without the blanks -/
  | indented {n l ls} : 0 < n → n < 256 → TextLine l → (∀ m ∈ ls, Starts m ∧ Chars m) →
      Written ((l :: ls).map (List.replicate n ' ' ++ ·)) (.text .literal (l :: ls))
  /-- `[style]` before text -/
  | styled {s k ls} : (s, k) ∈ styles → Lines ls → Written (('[' :: s ++ [']']) :: ls) (.text k ls)
  /-- text in quotation marks with a line that says who said it -/
  | quoted {l ls who cite} : Starts l → Chars l → NoTerm l → (∀ m ∈ ls, More m) → Credit who cite →
      Written (inMarks (l :: ls) ++ [credit who cite]) (.quoted (l :: ls) [who] (cite.map ([·])))
  /-- `> text`: a quote with one or more paragraphs -/
  | quotes {ps} : ps ≠ [] → (∀ p ∈ ps, Lines p) → Written (markedAll ps) (.quotes (ps.map (.text .paragraph)))
  /-- `> text` with a line that says who said it -/
  | markedQuote {ls who cite} : Lines ls → Credit who cite →
      Written (marked (ls ++ [credit who cite])) (.quoted ls [who] (cite.map ([·])))

end Verif.Paragraphs

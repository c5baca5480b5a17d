import Verif.Spec.Tables
/-! Tables of comma-separated values as an author writes them. -/
namespace Verif.Tables
open Verif Columns

def quoteTok : Tok := ⟨.DoubleQuote, ['"'], false⟩

/-- the text of a cell in double quotes: each double quote in it is doubled -/
def quoteText (v : List Tok) : List Tok := v.flatMap fun t => if t.kind = .DoubleQuote then [t, t] else [t]

/-- a cell: its text, in double quotes or not -/
structure CsvCell where
  quoted : Bool
  text : List Tok

def CsvCell.tokens (c : CsvCell) : List Tok := if c.quoted then quoteTok :: (quoteText c.text ++ [quoteTok]) else c.text

/-- cells with a separator between them -/
def csvLine (sep : Tok) : List CsvCell → List Tok
  | [] => []
  | [c] => c.tokens
  | c :: cs => c.tokens ++ sep :: csvLine sep cs

/-- lines with line ends between them; `final`: what follows the last line, a line end or nothing -/
def csvLines (sep newline : Tok) (final : List Tok) : List (List CsvCell) → List Tok
  | [] => []
  | [l] => csvLine sep l ++ final
  | l :: ls => csvLine sep l ++ newline :: csvLines sep newline final ls

/-- the token separates cells -/
def separates (cfg : Config) (t : Tok) : Prop :=
  t.kind ≠ .Newline ∧ t.kind ≠ .DoubleQuote ∧ match cfg.sepKind with | some k => t.kind = k | none => t.lexeme = [cfg.sep]

/-- a text without white space around it, and without an unusual separator inside a token; not in quotes, it has no
separator, no line end and no double quote, and is not empty -/
def CsvCell.ok (cfg : Config) (c : CsvCell) : Prop :=
  (∀ t, c.text.head? = some t → t.ws = false) ∧ (∀ t, c.text.getLast? = some t → t.ws = false) ∧
  (cfg.sepKind = none → ∀ t ∈ c.text, cfg.sep ∉ t.lexeme) ∧
  (c.quoted = false → c.text ≠ [] ∧ ∀ t ∈ c.text, t.kind ≠ .Newline ∧ t.kind ≠ .DoubleQuote ∧ cfg.sepKind ≠ some t.kind)

end Verif.Tables

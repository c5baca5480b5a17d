import Verif.Model.TableText
/-!
The lines of a table, and its format.
-/
namespace Verif.Spec.TableText
open Verif.TableText Verif.Tables

/-- a line has the text of another one, token by token -/
def SameText (a b : Line) : Prop := a.map Tok.lexeme = b.map Tok.lexeme

/-- a comment starts with exactly two slashes -/
def Comment (l : Line) : Prop := ∃ t ts, l = t :: ts ∧ t.kind = .ForwardSlashes ∧ t.lexeme.length = 2

instance (l : Line) : Decidable (Comment l) :=
  match l with
  | [] => .isFalse (by rintro ⟨_, _, h, _⟩; cases h)
  | t :: ts => if h : t.kind = .ForwardSlashes ∧ t.lexeme.length = 2 then .isTrue ⟨t, ts, rfl, h⟩
    else .isFalse (by rintro ⟨_, _, e, h1⟩; cases e; exact h h1)

/-- the lines of a table among the lines after its opening line: all up to the first that is like the opening line, or all; and those after -/
inductive Ends (delim : Line) : List Line → List Line → Option (List Line) → Prop
  | closed (body close after) : (∀ l ∈ body, ¬ SameText l delim) → SameText close delim → Ends delim (body ++ close :: after) body (some after)
  | never (body) : (∀ l ∈ body, ¬ SameText l delim) → Ends delim body body none

/-- the lines of a table without comments -/
def shown (body : List Line) : List Line := body.filter fun l => ¬ Comment l

/-- lines with line ends between them -/
def joined : List Line → List Tok
  | [] => []
  | [l] => l
  | l :: ls => l ++ newline :: joined ls

/-- the content of a table: its lines without those that are empty at its start, and a line end before the closing line -/
def content (lines : List Line) (closed : Bool) : List Tok :=
  match lines.dropWhile (· = []) with
  | [] => []
  | ls => joined ls ++ (if closed then [newline] else [])

/-- the formats of tables, as in the documentation of AsciiDoc -/
def meant (format : Option (List Char)) (delim : Char) : Tables.Format × Char :=
  match format with
  | some f =>
    if f = "psv".toList then (.prefixed, if delim = '!' then '!' else '|')
    else if f = "csv".toList then (.csv, ',')
    else if f = "tsv".toList then (.csv, '\t')
    else if f = "dsv".toList then (.delimited, ':')
    else byDelim delim
  | none => byDelim delim
where
  byDelim (delim : Char) : Tables.Format × Char :=
    if delim = ',' then (.csv, ',') else if delim = ':' then (.delimited, ':') else (.prefixed, delim)

end Verif.Spec.TableText

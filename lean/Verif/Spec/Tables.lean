import Verif.Model.Tables
/-! Tables as an author writes them, token by token, and what they should become. -/
namespace Verif.Tables
open Verif Columns

/-- part of the text of a cell: a token, or an escaped separator -/
inductive Piece | plain (t : Tok) | escaped

def backslash : Tok := ⟨.Backslash, ['\\'], false⟩

def Piece.tokens (sep : Tok) : Piece → List Tok | .plain t => [t] | .escaped => [backslash, sep]
def Piece.value (sep : Tok) : Piece → Tok | .plain t => t | .escaped => sep

/-- a cell as an author writes it: `3*2.4+>.^m| text`. `lead` and `trail` are the white space before and after the text. -/
structure Written where
  copies : Nat := 1
  cols : Nat := 1
  rows : Nat := 1
  h : Option HAlign := none
  v : Option VAlign := none
  style : Option Style := none
  lead : List Tok := []
  text : List Piece := []
  trail : List Tok := []

def numberTok (n : Nat) : Tok := ⟨.Digits, Nat.toDigits 10 n, false⟩
def starTok : Tok := ⟨.Star, ['*'], false⟩
def plusTok : Tok := ⟨.Plus, ['+'], false⟩
def dotTok : Tok := ⟨.Dots, ['.'], false⟩
def hTok : HAlign → Tok
  | .left => ⟨.LessThan, ['<'], false⟩ | .center => ⟨.Caret, ['^'], false⟩ | .right => ⟨.GreaterThan, ['>'], false⟩
def vTok : VAlign → Tok
  | .top => ⟨.LessThan, ['<'], false⟩ | .middle => ⟨.Caret, ['^'], false⟩ | .bottom => ⟨.GreaterThan, ['>'], false⟩
def styleTok : Style → Tok
  | .asciidoc => ⟨.Word, ['a'], false⟩ | .default => ⟨.Word, ['d'], false⟩ | .emphasis => ⟨.Word, ['e'], false⟩
  | .header => ⟨.Word, ['h'], false⟩ | .literal => ⟨.Word, ['l'], false⟩ | .monospace => ⟨.Word, ['m'], false⟩
  | .strong => ⟨.Word, ['s'], false⟩

def copiesToks (n : Nat) : List Tok := if n = 1 then [] else [numberTok n, starTok]

def spanToks (cols rows : Nat) : List Tok :=
  if cols = 1 then (if rows = 1 then [] else [dotTok, numberTok rows, plusTok])
  else if rows = 1 then [numberTok cols, plusTok]
  else [numberTok cols, dotTok, numberTok rows, plusTok]

def hToks : Option HAlign → List Tok | some a => [hTok a] | none => []
def vToks : Option VAlign → List Tok | some a => [dotTok, vTok a] | none => []

/-- `<.>` is one token -/
def alignToks (h : Option HAlign) (v : Option VAlign) : List Tok :=
  if h = some .left ∧ v = some .bottom then [⟨.CalloutNumber, ['<', '.', '>'], false⟩] else hToks h ++ vToks v

def styleToks : Option Style → List Tok | some s => [styleTok s] | none => []

def Written.tokens (sep : Tok) (w : Written) : List Tok :=
  copiesToks w.copies ++ (spanToks w.cols w.rows ++ (alignToks w.h w.v ++ (styleToks w.style ++
    (sep :: (w.lead ++ (w.text.flatMap (Piece.tokens sep) ++ w.trail))))))

/-- the text of the cell -/
def Written.value (sep : Tok) (w : Written) : List Tok := w.text.map (Piece.value sep)

/-- the separator is a token of its own, of a kind and a character that specifications are not made of -/
def sepOk (sep : Tok) (c : Char) : Prop :=
  sep.lexeme = [c] ∧ sep.attr = false ∧
  sep.kind ∉ [TokenKind.Digits, .Star, .Plus, .Dots, .LessThan, .GreaterThan, .Caret, .CalloutNumber, .Word, .Whitespace, .Newline, .Backslash] ∧
  c.isDigit = false ∧ c ∉ ['*', '+', '.', '<', '>', '^', 'a', 'd', 'e', 'h', 'l', 'm', 's', 'v', '\\']

/-- the numbers fit, and the text is a text: no separator in it that is not escaped, and white space around it is in `lead`
and `trail`; something separates it from the next cell -/
def Written.ok (c : Char) (w : Written) : Prop :=
  (1 ≤ w.copies ∧ w.copies ≤ 255) ∧ (1 ≤ w.cols ∧ w.cols ≤ 255) ∧ (1 ≤ w.rows ∧ w.rows ≤ 255) ∧
  (∀ t ∈ w.lead, t.kind = .Whitespace ∧ c ∉ t.lexeme) ∧
  (∀ t, .plain t ∈ w.text → c ∉ t.lexeme) ∧
  (∀ t, w.text.head? = some (.plain t) → t.kind ≠ .Whitespace) ∧
  (∀ t, w.text.getLast? = some (.plain t) → t.ws = false) ∧
  (w.text ≠ [] → w.trail ≠ []) ∧ (∀ t ∈ w.trail, t.ws = true ∧ c ∉ t.lexeme)

/-- a table, row by row -/
abbrev Grid := List (List Written)

def gridTokens (sep : Tok) (g : Grid) : List Tok := g.flatMap fun row => row.flatMap (Written.tokens sep)

/-- a row with the copies made: the text and the spans of each cell -/
def rowShape (sep : Tok) (row : List Written) : List (List Tok × Nat × Nat) :=
  row.flatMap fun w => List.replicate w.copies (w.value sep, w.cols, w.rows)

def Cell.shape (c : Cell) : List Tok × Nat × Nat := (c.text, c.colSpan, c.rowSpan)

/-- how many columns of a row its own cells take -/
def ownWidth (row : List Written) : Nat := (row.map fun w => w.copies * w.cols).sum

/-- how many columns the cells of row `i` take in row `r` (`i < r`) -/
def reach (i r : Nat) (row : List Written) : Nat :=
  (row.map fun w => if r < i + w.rows then w.copies * w.cols else 0).sum

/-- how many columns of row `r` are covered by cells of the rows above it -/
def coveredWidth (g : Grid) (r : Nat) : Nat := ((List.range r).map fun i => reach i r (g[i]?.getD [])).sum

/-- every row fills the width, counting what cells above it cover -/
def Filled (n : Nat) (g : Grid) : Prop := ∀ r (h : r < g.length), ownWidth g[r] + coveredWidth g r = n

/-- no cell reaches below the last row -/
def Contained (g : Grid) : Prop := ∀ r (h : r < g.length), ∀ w ∈ g[r], r + w.rows ≤ g.length

/-- cells that reach into the same row from above start in the same row -/
def Aligned (g : Grid) : Prop := ∀ r i j (hi : i < g.length) (hj : j < g.length), i < r → j < r →
  (∃ w ∈ g[i], r < i + w.rows) → (∃ w ∈ g[j], r < j + w.rows) → i = j

def Table.allRows (t : Table) : List (List Cell) := t.header.toList ++ t.rows ++ t.footer.toList

/-- the separator is one of the usual ones, or values of attributes do not contain it -/
def attrOk (c : Char) (ts : List Tok) : Prop :=
  (c = ':' ∨ c = ';' ∨ c = '|' ∨ c = ',') ∨ ∀ t ∈ ts, t.attr = true → c ∉ t.lexeme

end Verif.Tables

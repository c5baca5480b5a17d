import Verif.Spec.Urls
/-!
Specification: lines of plain text with index terms.
-/
namespace Verif.Inlines
open TokenKind

/-- plain text, without white space at its ends -/
structure Phrase (text : List Tok) : Prop where
  plain : ∀ t ∈ text, isPlainTok t = true
  first : ∃ t, text.head? = some t ∧ t.kind ≠ Whitespace
  last : ∃ t c, text.getLast? = some t ∧ t.kind ≠ Whitespace ∧ t.lexeme.getLast? = some c ∧ c.isWhitespace = false

/-- how a term of a concealed index term is written: as it is, or in double quotes when there are commas in it -/
inductive OneTerm : List Tok → List Tok → Prop where
  | bare {t} : Phrase t → (∀ x ∈ t, x.kind ≠ Comma) → OneTerm t t
  | quoted {a t b} : a.kind = DoubleQuote → Phrase t → b.kind = DoubleQuote → OneTerm (a :: t ++ [b]) t

/-- terms, with commas between them and blanks around the commas -/
inductive TermList : List Tok → List (List Tok) → Prop where
  | last {w t} : OneTerm w t → TermList w [t]
  | cons {w t before comma after ws ts} : OneTerm w t → (∀ x ∈ before, x.kind = Whitespace) → comma.kind = Comma →
      (∀ x ∈ after, x.kind = Whitespace) → TermList ws ts → TermList (w ++ before ++ comma :: after ++ ws) (t :: ts)

/-- How index terms are written, the text that is shown before them, and the node that stands for them. -/
inductive Spelt : List Tok → List Char → Node → Prop where
  /-- `((term))`: the term, which is shown. Further parentheses before it are text, further ones behind it belong to it. -/
  | visible {o text c i j} : o.kind = OpenParens → o.lexeme = List.replicate (i + 2) '(' → Phrase text →
      c.kind = CloseParens → c.lexeme = List.replicate (j + 2) ')' → i = 0 ∨ j = 0 → j + 2 < 256 →
      Spelt (o :: text ++ [c]) (List.replicate i '(') (.wrap .indexTerm (textNode (textOf text ++ List.replicate j ')')))
  /-- `(((first, second, third)))`: up to three terms, which are not shown -/
  | hidden {o body terms c} : o.kind = OpenParens → o.len = 3 → TermList body terms → terms.length ≤ 3 → c.kind = CloseParens → c.len = 3 →
      Spelt (o :: body ++ [c]) [] (.wrap .concealed (terms.map fun t => .wrap .concealedTerm (textNode (textOf t))))

/-- a line: plain text with index terms, and plain text behind the last of them -/
inductive TermLine : List Tok → List Node → List Tok → Prop where
  | text {tail} : (∀ t ∈ tail, isPlainTok t = true) → TermLine tail (textNode (textOf tail)) tail
  | term {pre w lead n rest ns tail} : (∀ t ∈ pre, isPlainTok t = true) → Spelt w lead n → TermLine rest ns tail →
      TermLine (pre ++ w ++ rest) (textNode (textOf pre ++ lead) ++ n :: ns) tail

/-- lines; all but the last one end with text -/
inductive TermLines : List (List Tok) → List Node → Prop where
  | last {l ns tail} : TermLine l ns tail → TermLines [l] ns
  | cons {l ns tail ls ms} : TermLine l ns tail → tail ≠ [] → TermLines ls ms → TermLines (l :: ls) (ns ++ .leaf .newline :: ms)

end Verif.Inlines

import Verif.Model.Escape
/-! What escaping should achieve. -/
namespace Verif.Spec.Escape

/-- decimal digits -/
def dec (c : Char) : Prop := c ∈ "0123456789".toList
/-- hexadecimal digits -/
def hex (c : Char) : Prop := c ∈ "0123456789abcdefABCDEF".toList

/-- The text starts with a character reference: one of the four names used in
HTML output, or a decimal or hexadecimal number. -/
def StartsRef (s : List Char) : Prop :=
  (∃ name ∈ ["amp", "lt", "gt", "quot"], ∃ rest, s = '&' :: name.toList ++ ';' :: rest) ∨
  (∃ ds rest, ds ≠ [] ∧ (∀ c ∈ ds, dec c) ∧ s = '&' :: '#' :: ds ++ ';' :: rest) ∨
  (∃ ds rest, ds ≠ [] ∧ (∀ c ∈ ds, hex c) ∧ s = '&' :: '#' :: 'x' :: ds ++ ';' :: rest)

/-- Every ampersand starts a character reference. -/
def AmpsOk (s : List Char) : Prop := ∀ pre rest, s = pre ++ '&' :: rest → StartsRef ('&' :: rest)

/-- Reading HTML text: the references escaping produces are replaced by the
characters they stand for, everything else is kept. -/
def unescape : List Char → List Char
  | '&' :: 'a' :: 'm' :: 'p' :: ';' :: cs => '&' :: unescape cs
  | '&' :: 'l' :: 't' :: ';' :: cs => '<' :: unescape cs
  | '&' :: 'g' :: 't' :: ';' :: cs => '>' :: unescape cs
  | '&' :: 'q' :: 'u' :: 'o' :: 't' :: ';' :: cs => '"' :: unescape cs
  | '&' :: '#' :: '8' :: '2' :: '1' :: '7' :: ';' :: cs => '’' :: unescape cs
  | c :: cs => c :: unescape cs
  | [] => []

/-- What a reader sees of an apostrophe in an attribute. -/
def curl (quotes : Bool) (c : Char) : Char := if quotes = true ∧ c = '\'' then '’' else c

/-- Decoding `%20` and `%2C` in a URL. -/
def urlDecode : List Char → List Char
  | '%' :: '2' :: '0' :: cs => ' ' :: urlDecode cs
  | '%' :: '2' :: 'C' :: cs => ',' :: urlDecode cs
  | c :: cs => c :: urlDecode cs
  | [] => []

end Verif.Spec.Escape

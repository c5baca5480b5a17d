import Verif.Spec.Brackets
/-!
Specification: texts of links with equal signs in them.
-/
namespace Verif.Inlines
open TokenKind

/-- a token of text, or equal signs -/
def isTextOrEquals (t : Tok) : Bool := isPlainTok t || t.kind = EqualSigns

/-- The text in the brackets, and what it should show: text in double quotes, which may have equal signs in it; or text with no single equal
sign, since that would be an attribute. -/
inductive ReadAs : List Tok → List Tok → Prop where
  | bare {text} : text ≠ [] → (∀ t ∈ text, isTextOrEquals t = true ∧ (t.kind = EqualSigns → t.len ≠ 1)) → ReadAs text text
  | quoted {q text q'} : q.kind = DoubleQuote → q'.kind = DoubleQuote → text ≠ [] → (∀ t ∈ text, isTextOrEquals t = true) →
      ReadAs (q :: text ++ [q']) text

end Verif.Inlines

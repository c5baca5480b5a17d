import Verif.Spec.Phrases
import Verif.Spec.Urls
/-!
Specification: a macro with brackets in a line of text.
-/
namespace Verif.Inlines
open TokenKind

/-- plain text, a name or scheme, an address, plain text in brackets, plain text -/
structure BracketLine (pre : List Tok) (name : Tok) (address : List Tok) (opening : Tok) (text : List Tok) (closing : Tok) (post : List Tok) :
    Prop where
  preOk : ∀ t ∈ pre, isPlainTok t = true
  addressOk : ∀ t ∈ address, isUrlTok t = true
  openingOk : opening.kind = OpenBracket
  nonempty : text ≠ []
  closingOk : closing.kind = CloseBracket
  postOk : ∀ t ∈ post, isPlainTok t = true

/-- The tokens are those of the pieces, on one line, right after an opening bracket. -/
structure PhraseToks (ps : List Ph) (text : List Tok) : Prop where
  ok : ∀ t ∈ text, OkTok t
  line : ∀ t ∈ text, t.kind ≠ Newline
  chained : Chained (some '[') text
  written : textOf text = writtenAll ps

end Verif.Inlines

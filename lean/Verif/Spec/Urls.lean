import Verif.Model.Inlines
/-!
Specification: a bare URL in a line of text.
-/
namespace Verif.Inlines
open TokenKind

/-- tokens of plain text: words, digits, single spaces, commas, single dots, exclamation and question marks -/
def isPlainTok (t : Tok) : Bool :=
  !t.attr && (t.kind = Word || t.kind = Digits || (t.kind = Whitespace && t.lexeme = [' ']) || (t.kind = Comma && t.lexeme = [',']) ||
    (t.kind = Dots && t.lexeme = ['.']) || (t.kind = Bang && t.lexeme = ['!']) || (t.kind = QuestionMark && t.lexeme = ['?']))

/-- tokens that a URL consists of after `https://` -/
def isUrlTok (t : Tok) : Bool :=
  !t.lexeme.isEmpty && [Word, Digits, Dots, ForwardSlashes, Dashes, Underscore, EqualSigns, Ampersand, Tilde, Plus, Percent, Hash].contains t.kind

/-- a scheme of a URL -/
def isScheme (s : List Char) : Bool := ["https://", "http://", "ftp://", "irc://"].any (fun x => s = x.toList)

/-- what may follow a URL: nothing, white space or the end of a sentence -/
def endsUrl (post : List Tok) : Bool :=
  match post with
  | [] => true
  | t :: r => t.kind = Whitespace || t.kind = Bang || t.kind = QuestionMark ||
      (t.kind = Dots && (match r with | [] => true | u :: _ => decide (u.kind = Whitespace)))

/-- the text of tokens -/
def textOf (ts : List Tok) : List Char := ts.flatMap (·.lexeme)

/-- the nodes of some text -/
def textNode (s : List Char) : List Node := if s = [] then [] else [.leaf (.text s)]

/-- plain text, a URL, plain text -/
structure UrlLine (pre : List Tok) (scheme : Tok) (url post : List Tok) : Prop where
  preOk : ∀ t ∈ pre, isPlainTok t = true
  kind : scheme.kind = UriScheme
  schemeOk : isScheme scheme.lexeme = true
  nonempty : url ≠ []
  urlOk : ∀ t ∈ url, isUrlTok t = true
  last : ∀ t, url.getLast? = some t → t.kind ≠ Dots
  postOk : ∀ t ∈ post, isPlainTok t = true
  ends : endsUrl post = true

end Verif.Inlines

import Verif.Model.Inlines
/-! Specifications for inline parsing. -/
namespace Verif.Inlines
open Verif TokenKind

/-! ### text that the parser can read

Each condition below rules out one way to make the parser panic (theorems `C64_…_violated`), or a construct that is not
modelled. -/

/-- what stands behind the opening bracket of a link can be read as its text: it is no list of attributes, it is closed, it
is not in quotes and has no attribute references -/
def linkText (l : List Tok) : Bool :=
  match linkScan Eof false false l.dropLast with
  | none => false
  | some n => isKind CloseBracket l[n]? && (l.take n).all (·.kind ≠ AttrRef) && unquoteToks (l.take n) = l.take n

/-- what stands behind the first opening bracket -/
def inBrackets (l : List Tok) : List Tok := (l.dropWhile (·.kind ≠ OpenBracket)).drop 1

/-- a macro with brackets is a cross reference, a footnote or a link with a text -/
structure ReadMacro (t : Tok) (mid : List Tok) : Prop where
  name : t.lexeme = "footnote:".toList ∨ t.lexeme = "xref:".toList ∨ t.lexeme = "link:".toList
  link : t.lexeme = "link:".toList → noWhitespaceUntil OpenBracket false mid = true →
    startsSeq [.kind PreprocPassthru, .kind OpenBracket] mid = false ∧ linkText (inBrackets mid) = true

/-- the conditions on a token and the tokens after it, up to some point in the line -/
structure Local (t : Tok) (mid : List Tok) : Prop where
  /-- a token after dashes is not empty (no token of the lexer is) -/
  dashes : t.kind = Dashes → ∀ u ∈ mid.head?, u.lexeme ≠ []
  /-- what stands in brackets before a span can be read as a list of attributes -/
  attrs : t.kind = OpenBracket → continuesFormatted mid = true → (AttrList.parseFormatted (mid.map Tok.tk)).isSome = true
  /-- an anchor has a name -/
  anchor : t.kind = OpenBracket → ∀ u ∈ mid[1]?, u.lexeme ≠ []
  /-- no escaped closing bracket -/
  escaped : t.kind = Backslash → isKind CloseBracket mid.head? = false
  /-- no index term -/
  parens : t.kind = OpenParens → t.len < 2
  /-- of the macros with brackets only some -/
  macros : t.kind = MacroName → continuesMacro t mid = true → ReadMacro t mid
  /-- no list of attributes behind a URL -/
  link : t.kind = UriScheme → continuesMacro t mid = true → linkText (inBrackets mid) = true
  /-- no attribute with a passthrough as value -/
  pass : t.kind ≠ AttrPassDbl
  /-- the schemes that the parser knows (`mailto://` is not one) -/
  scheme : t.kind = UriScheme → knownScheme t.lexeme = true

/-- the next token exists, and is not one at which a cross reference or an anchor ends -/
def goesOn : List Tok → Bool
  | [] => false
  | u :: _ => u.kind ≠ GreaterThan && u.kind ≠ CloseBracket

/-- the conditions on a token and all tokens after it in the line -/
structure Next (t : Tok) (ts : List Tok) : Prop where
  /-- two backslashes stand before something -/
  backslashes : t.kind = Backslash → isKind Backslash ts.head? = true → goesOn (ts.drop 1) = true
  /-- the scheme of a URL stands before something -/
  url : t.kind = UriScheme → goesOn ts = true

/-- a line that the parser can read -/
def Safe : List Tok → Prop
  | [] => True
  | t :: ts => (∀ k, k ≤ ts.length → Local t (ts.take k)) ∧ Next t ts ∧ Safe ts

instance (t : Tok) (mid : List Tok) : Decidable (ReadMacro t mid) :=
  decidable_of_iff
    ((t.lexeme = "footnote:".toList ∨ t.lexeme = "xref:".toList ∨ t.lexeme = "link:".toList) ∧
      (t.lexeme = "link:".toList → noWhitespaceUntil OpenBracket false mid = true →
        startsSeq [.kind PreprocPassthru, .kind OpenBracket] mid = false ∧ linkText (inBrackets mid) = true))
    ⟨fun ⟨a, b⟩ => ⟨a, b⟩, fun ⟨a, b⟩ => ⟨a, b⟩⟩

instance (t : Tok) (mid : List Tok) : Decidable (Local t mid) :=
  decidable_of_iff
    ((t.kind = Dashes → ∀ u ∈ mid.head?, u.lexeme ≠ []) ∧
      (t.kind = OpenBracket → continuesFormatted mid = true →
        (AttrList.parseFormatted (mid.map Tok.tk)).isSome = true) ∧
      (t.kind = OpenBracket → ∀ u ∈ mid[1]?, u.lexeme ≠ []) ∧
      (t.kind = Backslash → isKind CloseBracket mid.head? = false) ∧
      (t.kind = OpenParens → t.len < 2) ∧
      (t.kind = MacroName → continuesMacro t mid = true → ReadMacro t mid) ∧
      (t.kind = UriScheme → continuesMacro t mid = true → linkText (inBrackets mid) = true) ∧
      (t.kind ≠ AttrPassDbl) ∧ (t.kind = UriScheme → knownScheme t.lexeme = true))
    ⟨fun ⟨a, b, c, d, e, f, g, h, i⟩ => ⟨a, b, c, d, e, f, g, h, i⟩,
      fun ⟨a, b, c, d, e, f, g, h, i⟩ => ⟨a, b, c, d, e, f, g, h, i⟩⟩

instance (t : Tok) (ts : List Tok) : Decidable (Next t ts) :=
  decidable_of_iff
    ((t.kind = Backslash → isKind Backslash ts.head? = true → goesOn (ts.drop 1) = true) ∧
      (t.kind = UriScheme → goesOn ts = true)) ⟨fun ⟨a, b⟩ => ⟨a, b⟩, fun ⟨a, b⟩ => ⟨a, b⟩⟩

instance decSafe : (l : List Tok) → Decidable (Safe l)
  | [] => .isTrue trivial
  | t :: ts =>
    have := decSafe ts
    inferInstanceAs (Decidable ((∀ k, k ≤ ts.length → Local t (ts.take k)) ∧ Next t ts ∧ Safe ts))

end Verif.Inlines

import Verif.Model.Lexer
/-!
Tokens as the block and inline parsers see them: `parser/src/token.rs:6-13`.

Simplification: the source location and the flag saying that the token came from an attribute reference are
left out; a lexeme is a list of characters.
-/
namespace Verif

/-- `parser/src/token.rs:6-13` — `Token` -/
structure Tk where
  kind : TokenKind
  lexeme : List Char
deriving DecidableEq, Repr

/-- `token.rs:225-227` — `len` (all tokens whose length is asked for are ASCII) -/
def Tk.len (t : Tk) : Nat := t.lexeme.length

/-- the text of a run of tokens -/
def Tk.text (l : List Tk) : List Char := l.flatMap (·.lexeme)

end Verif

import Verif.Model.Passthrough
/-! Paragraphs with inline passthroughs as an author writes them. -/
namespace Verif.Passthrough
open Verif

/-- a token, text between one, two or three pluses, or a `pass` macro; text may go over several lines -/
inductive Piece
  | plain (t : Tk)
  | plus (k : Nat) (content : List (List Tk))
  | passMacro (target : List Tk) (content : List (List Tk))

/-- the last line of the first is continued by the first line of the second -/
def glue : List (List Tk) → List (List Tk) → List (List Tk)
  | [], ms => ms
  | [l], [] => [l]
  | [l], m :: ms => (l ++ m) :: ms
  | l :: ls, ms => l :: glue ls ms

def pluses (k : Nat) : List Tk := List.replicate k ⟨.Plus, ['+']⟩
def passTok : Tk := ⟨.MacroName, "pass:".toList⟩
def openTok : Tk := ⟨.OpenBracket, ['[']⟩
def closeTok : Tk := ⟨.CloseBracket, [']']⟩

/-- the lines of a written line (more than one if a passthrough goes over several) -/
def write : List Piece → List (List Tk)
  | [] => [[]]
  | .plain t :: ps => glue [[t]] (write ps)
  | .plus k c :: ps => glue [pluses k] (glue c (glue [pluses k] (write ps)))
  | .passMacro tg c :: ps => glue [passTok :: (tg ++ [openTok])] (glue c (glue [[closeTok]] (write ps)))

/-- what the reader of a written paragraph gets: the tokens, and the protected text with the substitutions for it: none
between three pluses, only special characters between one or two, and the ones named by a macro -/
def Piece.meaning : Piece → Out
  | .plain t => .tok t
  | .plus k c => .pass ⟨if k = 3 then .none else .onlySpecialChars, c⟩
  | .passMacro tg c => .pass ⟨macroSubs (Tk.text tg), c⟩

def Piece.isPass : Piece → Bool
  | .plain _ => false
  | _ => true

/-- the kind of the last token of a piece -/
def Piece.lastKind : Piece → TokenKind
  | .plain t => t.kind
  | .plus _ _ => .Plus
  | .passMacro _ _ => .CloseBracket

def contentOk (c : List (List Tk)) : Prop := c ≠ [] ∧ ∀ l ∈ c, l ≠ []

/-- a piece that stands after a token of kind `prev` and before `next`: other tokens are not pluses or `pass:`; text between
pluses has no plus in it and goes over no line that ends a block; text between single pluses has no white space at its ends
and no letters around; text in a macro has no brackets in it and does not end with a backslash -/
def Piece.ok (delim : Tk → Bool) (prev : Option TokenKind) (next : Option Piece) : Piece → Prop
  | .plain t => t.kind ≠ .Plus ∧ t.kind ≠ .PreprocPassthru ∧ ¬ (t.kind = .MacroName ∧ t.lexeme = "pass:".toList)
  | .plus k c => 1 ≤ k ∧ k ≤ 3 ∧ contentOk c ∧ (∀ l ∈ c, ∀ t ∈ l, t.kind ≠ .Plus) ∧ (∀ l ∈ c, isDelimiter delim l = false) ∧ prev ≠ some .Backtick ∧
      (k = 1 → (prev = none ∨ prev = some .Whitespace) ∧ (∀ t, c.flatten.head? = some t → wsish t = false) ∧
        (∀ t, c.flatten.getLast? = some t → wsish t = false) ∧ ∀ t, next = some (.plain t) → t.kind ≠ .Word)
  | .passMacro tg c => (∀ t ∈ tg, isTarget t = true) ∧ contentOk c ∧ (∀ l ∈ c, ∀ t ∈ l, t.kind ≠ .OpenBracket ∧ t.kind ≠ .CloseBracket) ∧
      ∀ t, c.flatten.getLast? = some t → t.kind ≠ .Backslash

/-- a line of such pieces; between text in pluses and the next passthrough there are as many tokens as there are pluses -/
def lineOk (delim : Tk → Bool) : Option TokenKind → List Piece → Prop
  | _, [] => True
  | prev, p :: ps => p.ok delim prev ps.head? ∧ (∀ k c, p = .plus k c → ∀ q ∈ ps.take k, q.isPass = false) ∧ lineOk delim (some p.lastKind) ps

end Verif.Passthrough

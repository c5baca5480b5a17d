import Verif.Model.Conums
/-!
Specification of the callouts of a verbatim line.
-/
namespace Verif.Conums

/-- the characters of a token -/
def Tok.chars : Tok → List Char
  | .text s => s
  | .white s => s
  | .special c => [c]
  | .mark s => s
  | .conum s => '<' :: s ++ ['>']

/-- the characters of a node -/
def Node.chars : Node → List Char
  | .text s => s
  | .special c => [c]
  | .tuck s => s
  | .callout s => '<' :: s ++ ['>']

/-- blanks and tabs -/
def blank (c : Char) : Bool := c = ' ' || c = '\t'

def Tok.isWhite : Tok → Bool
  | .white _ => true
  | _ => false

def Tok.conum? : Tok → Option (List Char)
  | .conum s => some s
  | _ => none

def Node.callout? : Node → Option (List Char)
  | .callout s => some s
  | _ => none

/-- the callouts of a line: those at its end, with nothing but blanks among and after them -/
def atEnd (l : List Tok) : List (List Char) :=
  ((l.reverse.takeWhile fun t => t.isWhite || t.conum?.isSome).reverse).filterMap (·.conum?)

/-- tokens as they are read: blanks are blanks, and the line has no whitespace but blanks and tabs -/
def Plain (t : Tok) : Prop :=
  (∀ c ∈ t.chars, isWs c = true → blank c = true) ∧ (t.isWhite = true → ∀ c ∈ t.chars, blank c = true)

end Verif.Conums

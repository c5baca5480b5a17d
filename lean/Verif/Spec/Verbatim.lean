import Verif.Spec.DirText
/-! Specification: delimited blocks whose lines are kept. -/
namespace Verif.Verbatim
open Verif.Directives (encode PlainText)

/-- the lines that open and close listing, literal and passthrough blocks -/
def fences : List (List Char) := ["----".toList, "```".toList, "....".toList, "++++".toList]

/-- the line could close the block: it is the delimiter, or three backticks with something after them -/
def Closes (fence line : List Char) : Prop := line = fence ∨ fence = "```".toList ∧ fence <+: line

/-- spaces and tabulators (also vertical ones, and form feeds) -/
def isBlankChar (c : Char) : Bool := c = ' ' || c = '\t' || c = Char.ofNat 0x0B || c = Char.ofNat 0x0C

/-- nothing to be seen in the line -/
def isBlank (line : List Char) : Bool := line.all isBlankChar

/-- the lines without the empty ones at both ends -/
def trim (lines : List (List Char)) : List (List Char) :=
  ((lines.dropWhile (·.isEmpty)).reverse.dropWhile (·.isEmpty)).reverse

/-- a block and the lines after it, each line with the end of line `nl` -/
def source (nl : List UInt8) (fence : List Char) (lines after : List (List Char)) : List UInt8 :=
  (fence :: (lines ++ fence :: after)).flatMap (encode · ++ nl)

/-- spaces, then something to be seen -/
def Code (line : List Char) : Prop := ∃ k c body, line = List.replicate k ' ' ++ c :: body ∧ isBlankChar c = false

/-- all lines start with so many spaces, and one of them not with more -/
structure Common (m : Nat) (lines : List (List Char)) : Prop where
  all : ∀ l ∈ lines, List.replicate m ' ' <+: l
  most : ∃ l ∈ lines, ¬ List.replicate (m + 1) ' ' <+: l

/-- the line moved: `n` spaces in the place of the first `m` -/
def moved (m n : Nat) (line : List Char) : List Char := List.replicate n ' ' ++ line.drop m

end Verif.Verbatim

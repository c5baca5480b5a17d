import Verif.Model.IncludeText
/-! Specifications for the selection of included text. -/
namespace Verif.IncludeText

/-- lines put together with newlines between them -/
def joinNl : List Bytes → Bytes
  | [] => []
  | [l] => l
  | l :: ls => l ++ 10 :: joinNl ls

/-! ### lines= -/

/-- a requested range of line numbers -/
inductive LineRange where
  | one (n : Nat)
  | fromTo (a b : Nat)
  /-- `a..` -/
  | fromOn (a : Nat)
  /-- `a..-1` -/
  | fromOn' (a : Nat)

namespace LineRange

/-- how it is written -/
def render : LineRange → List Char
  | one n => Nat.toDigits 10 n
  | fromTo a b => Nat.toDigits 10 a ++ '.' :: '.' :: Nat.toDigits 10 b
  | fromOn a => Nat.toDigits 10 a ++ ['.', '.']
  | fromOn' a => Nat.toDigits 10 a ++ ['.', '.', '-', '1']

/-- which line numbers it means -/
def has : LineRange → Nat → Bool
  | one n, k => k = n
  | fromTo a b, k => a ≤ k ∧ k ≤ b
  | fromOn a, k => a ≤ k
  | fromOn' a, k => a ≤ k

/-- bounds in order, and small enough for the machine -/
def Valid : LineRange → Prop
  | one n => n < usizeMax
  | fromTo a b => a ≤ b ∧ b < usizeMax
  | fromOn a => a < usizeMax
  | fromOn' a => a < usizeMax

end LineRange

/-- ranges, each with its own separator in front and spaces around it -/
def renderRanges : List (Char × Nat × LineRange × Nat) → List Char
  | [] => []
  | (sep, i, r, j) :: rest =>
    sep :: (List.replicate i ' ' ++ r.render ++ List.replicate j ' ' ++ renderRanges rest)

/-! ### tags= -/

/-- One request: `tag` or `!tag`. -/
structure Request where
  incl : Bool
  tag : Tag
deriving DecidableEq, Repr

def Request.render (r : Request) : List Char := if r.incl then r.tag else '!' :: r.tag

/-- requests separated by semicolons -/
def renderRequests : List Request → List Char
  | [] => []
  | [r] => r.render
  | r :: rs => r.render ++ ';' :: renderRequests rs

/-- a tag name that can be written: not empty, no space or separator, not a wildcard, not starting with `!` -/
def GoodTag (t : Tag) : Prop :=
  t ≠ [] ∧ (∀ c ∈ t, isWs c = false ∧ c ≠ ',' ∧ c ≠ ';') ∧ t.head? ≠ some '!' ∧ t.head? ≠ some '*'

/-- Whether a line in the given regions (innermost first) is requested: the innermost region that is mentioned
decides; if none is, lines are kept only if nothing is requested positively. -/
def wanted (reqs : List Request) (regions : List Tag) : Bool :=
  match regions.find? fun t => reqs.any fun r => r.tag == t with
  | some t => reqs.any fun r => r.incl && r.tag == t
  | none => !reqs.any fun r => r.incl

/-- a file with properly nested regions -/
inductive TagFile where
  | nil
  | line (l : Bytes) (rest : TagFile)
  | region (t : Tag) (startLine : Bytes) (body : TagFile) (endLine : Bytes) (rest : TagFile)

namespace TagFile

def lines : TagFile → List Bytes
  | nil => []
  | line l rest => l :: rest.lines
  | region _ s body e rest => s :: (body.lines ++ e :: rest.lines)

/-- the directive lines are recognised and the others are not -/
def Recognised (recognise : Bytes → Option TagDir) : TagFile → Prop
  | nil => True
  | line l rest => recognise l = none ∧ rest.Recognised recognise
  | region t s body e rest => recognise s = some (.start t) ∧ recognise e = some (.stop t) ∧
      body.Recognised recognise ∧ rest.Recognised recognise

/-- what is contributed: each directive line leaves a mark, other lines are kept if `keep` says so for the regions
around them (innermost first) -/
def expected (keep : List Tag → Bool) (regions : List Tag) : TagFile → List (Bool × Bytes)
  | nil => []
  | line l rest => (if keep regions then [(true, l)] else []) ++ rest.expected keep regions
  | region t _ body _ rest =>
    (false, placeholder) :: (body.expected keep (t :: regions) ++ (false, placeholder) :: rest.expected keep regions)

/-- every list of enclosing regions of the file satisfies `P` -/
def AllRegions (P : List Tag → Prop) (regions : List Tag) : TagFile → Prop
  | nil => True
  | line _ rest => P regions ∧ rest.AllRegions P regions
  | region t _ body _ rest => body.AllRegions P (t :: regions) ∧ rest.AllRegions P regions

end TagFile

/-- no `incl` region (directly or not) inside an `excl` region -/
def NotInside (incl excl : Tag) (regions : List Tag) : Prop :=
  ∀ l r, regions = l ++ excl :: r → incl ∉ l

/-! ### indent= -/

/-- leading spaces of a line -/
def spaces (n : Nat) : Bytes := List.replicate n 32

end Verif.IncludeText

import Verif.Spec.LineKinds
import Verif.Spec.Sections
/-! Specification: what the outline of a text of headings and paragraphs is. -/
namespace Verif.Outline
open Verif Verif.Lexer Verif.LineKinds Verif.Sections Verif.Spec.Sections Verif.Directives

/-- a heading line, with its level and title -/
structure Head where
  line : List Char
  level : Nat
  title : List Char

/-- A chunk of a text: headings, then the lines of a paragraph (there may be none). -/
structure Chunk where
  heads : List Head
  para : List (List Char)

/-- its lines -/
def Chunk.lines (c : Chunk) : List (List Char) := c.heads.map Head.line ++ c.para

/-- it is written as it says -/
structure Chunk.Ok (c : Chunk) : Prop where
  heads : ∀ h ∈ c.heads, Heading (encode h.line) h.level (encode h.title) ∧ h.level < 256 ∧ '\n' ∉ h.line ∧ '\r' ∉ h.line
  para : ∀ l ∈ c.para, TextLine l

/-- the headings and the paragraph of a chunk: level (of a heading) and text -/
def Chunk.entries (c : Chunk) : List (Option Nat × List (List Char)) :=
  c.heads.map (fun h => (some h.level, [h.title])) ++ (if c.para = [] then [] else [(none, c.para)])

/-- The entries as items, each with its number. -/
def numbered : Nat → List (Option Nat × List (List Char)) → List Item
  | _, [] => []
  | k, (some l, _) :: es => .heading l k none false :: numbered (k + 1) es
  | k, (none, _) :: es => .para k :: numbered (k + 1) es

mutual
/-- the levels of the sections of a block, in order -/
def levels : Node → List Nat
  | .leaf _ => []
  | .sect _ l inner => l :: levelsAll inner
  | .compound _ _ inner => levelsAll inner
def levelsAll : List Node → List Nat
  | [] => []
  | b :: bs => levels b ++ levelsAll bs
end

/-- the elements HTML has for headings -/
def htmlHeadings : List String := ["h1", "h2", "h3", "h4", "h5", "h6"]

end Verif.Outline

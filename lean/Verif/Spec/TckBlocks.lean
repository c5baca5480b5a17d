import Verif.Model.TckBlocks
import Verif.Spec.Tck
/-!
Specification of the blocks of the graph: documents and graphs are both read from top to bottom, as a list of marks.
-/
namespace Verif.Tck

/-- what is met when reading: the start of a block with its place, the end of one, and what inlines show -/
inductive Mark where
  | para (loc : Loc × Loc)
  | ulist (loc : Loc × Loc)
  | item (marker : List Char) (loc : Loc × Loc)
  | listing (delimiter : List Char) (loc : Loc × Loc)
  | sidebar (delimiter : List Char) (loc : Loc × Loc)
  | sect (level : Nat) (loc : Loc × Loc)
  | title
  | inline (p : Piece)
  | unknown
  | stop
deriving DecidableEq, Repr

/-- the ranges of bytes of nodes, in order -/
def Nodes.ranges : Nodes → List (Nat × Nat)
  | .nil => []
  | .text _ a e rest => (a, e) :: rest.ranges
  | .newline a e rest => (a, e) :: rest.ranges
  | .bold _ a e rest => (a, e) :: rest.ranges
  | .other a e rest => (a, e) :: rest.ranges

/-- where the last node ends -/
def Nodes.finish (ns : Nodes) : Nat := ((ns.ranges.getLast?).map (·.2)).getD 0

mutual
/-- blocks of a document, read from top to bottom -/
def Blocks.marks (src : List UInt8) : Blocks → List Mark
  | .nil => []
  | .para ns a e rest => .para (span src a e) :: ns.shown.map .inline ++ .stop :: rest.marks src
  | .ulist is a e rest => .ulist (span src a e) :: is.marks src ++ .stop :: rest.marks src
  | .listing d ns a e rest => .listing d (span src a e) :: ns.shown.map .inline ++ .stop :: rest.marks src
  | .sidebar d bs a e rest => .sidebar d (span src a e) :: bs.marks src ++ .stop :: rest.marks src
  | .sect l t bs a e rest => .sect l (span src a e) :: .title :: t.shown.map .inline ++ .stop :: bs.marks src ++ .stop :: rest.marks src
  | .other _ _ rest => .unknown :: rest.marks src
def ListItems.marks (src : List UInt8) : ListItems → List Mark
  | .nil => []
  | .item m a p bs rest =>
    .item m (span src a p.finish) :: p.shown.map .inline ++ bs.marks src ++ .stop :: rest.marks src
end

def Sects.marks (src : List UInt8) : Sects → List Mark
  | .nil => []
  | .sect l t bs a e rest => .sect l (span src a e) :: .title :: t.shown.map .inline ++ .stop :: bs.marks src ++ .stop :: rest.marks src

def Content.marks (src : List UInt8) : Content → List Mark
  | .blocks bs => bs.marks src
  | .sections pre ss => (pre.map (·.marks src)).getD [] ++ ss.marks src
  | .parts => [.unknown]

mutual
/-- blocks of a graph, read from top to bottom -/
def BVals.marks : BVals → List Mark
  | .nil => []
  | .para v loc rest => .para loc :: v.shown.map .inline ++ .stop :: rest.marks
  | .ulist _ is loc rest => .ulist loc :: is.marks ++ .stop :: rest.marks
  | .listing d v loc rest => .listing d loc :: v.shown.map .inline ++ .stop :: rest.marks
  | .sidebar d bs loc rest => .sidebar d loc :: bs.marks ++ .stop :: rest.marks
  | .sect l t bs loc rest => .sect l loc :: .title :: t.shown.map .inline ++ .stop :: bs.marks ++ .stop :: rest.marks
def IVals.marks : IVals → List Mark
  | .nil => []
  | .item m v loc rest => .item m loc :: v.shown.map .inline ++ .stop :: rest.marks
end

mutual
/-- The kit's own way of writing: list items marked by `*` and with no blocks attached, listings between `----`, sidebars between `****`. -/
def Blocks.usual : Blocks → Prop
  | .nil => True
  | .para _ _ _ rest => rest.usual
  | .ulist is _ _ rest => is.usual ∧ rest.usual
  | .listing d _ _ _ rest => d = "----".toList ∧ rest.usual
  | .sidebar d bs _ _ rest => d = "****".toList ∧ bs.usual ∧ rest.usual
  | .sect _ _ bs _ _ rest => bs.usual ∧ rest.usual
  | .other _ _ rest => rest.usual
def ListItems.usual : ListItems → Prop
  | .nil => True
  | .item m _ _ bs rest => m = ['*'] ∧ (match bs with | .nil => True | _ => False) ∧ rest.usual
end

def Sects.usual : Sects → Prop
  | .nil => True
  | .sect _ _ bs _ _ rest => bs.usual ∧ rest.usual

/-- …and nothing before the first section -/
def Content.usual : Content → Prop
  | .blocks bs => bs.usual
  | .sections pre ss => pre = none ∧ ss.usual
  | .parts => True

mutual
/-- Only paragraphs, unordered lists with some text in every item, listings and sidebars, of only text and bold text. -/
def Blocks.known : Blocks → Prop
  | .nil => True
  | .para ns _ _ rest => ns.plain false ∧ rest.known
  | .ulist is _ _ rest => is.known ∧ rest.known
  | .listing _ ns _ _ rest => ns.plain false ∧ rest.known
  | .sidebar _ bs _ _ rest => bs.known ∧ rest.known
  | .sect .. => False
  | .other .. => False
def ListItems.known : ListItems → Prop
  | .nil => True
  | .item _ _ p _ rest => p ≠ .nil ∧ p.plain false ∧ rest.known
end

def Sects.known : Sects → Prop
  | .nil => True
  | .sect _ t bs _ _ rest => t.plain false ∧ bs.known ∧ rest.known

def Content.known : Content → Prop
  | .blocks bs => bs.known
  | .sections _ ss => ss.known
  | .parts => False

end Verif.Tck

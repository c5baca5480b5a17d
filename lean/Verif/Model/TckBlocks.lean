import Verif.Model.Tck
/-!
Model of the blocks of the graph that is written for the compatibility kit: `tck/src/tck.rs:37-64,83-167`.

A panic (`todo!`, `unwrap` of nothing, and the subtraction that overflows for an empty source in a build with checks) is `none`. Titles of
blocks, attributes of blocks and authors are not in the graph and are not modelled.
-/
namespace Verif.Tck

mutual
/-- blocks, with the range of bytes they have in the source -/
inductive Blocks where
  | nil
  | para (inlines : Nodes) (start stop : Nat) (rest : Blocks)
  | ulist (items : ListItems) (start stop : Nat) (rest : Blocks)
  | listing (delimiter : List Char) (inlines : Nodes) (start stop : Nat) (rest : Blocks)
  | sidebar (delimiter : List Char) (blocks : Blocks) (start stop : Nat) (rest : Blocks)
  /-- a section in a section -/
  | sect (level : Nat) (title : Nodes) (blocks : Blocks) (start stop : Nat) (rest : Blocks)
  /-- all other blocks -/
  | other (start stop : Nat) (rest : Blocks)
/-- list items: the marker and where it starts, the principal text, the blocks attached -/
inductive ListItems where
  | nil
  | item (marker : List Char) (start : Nat) (principal : Nodes) (blocks : Blocks) (rest : ListItems)
end

/-- the sections right below the title of the document -/
inductive Sects where
  | nil
  | sect (level : Nat) (title : Nodes) (blocks : Blocks) (start stop : Nat) (rest : Sects)

/-- `doc_content.rs` `DocContent` -/
inductive Content where
  | blocks (bs : Blocks)
  | sections (preamble : Option Blocks) (ss : Sects)
  | parts

/-- the value of an attribute of the document -/
inductive AttrVal where
  | str (s : List Char)
  | bool (b : Bool)
deriving DecidableEq, Repr

/-- a header: the title, if there is one, and the range of bytes -/
structure Header where
  title : Option Nodes
  start : Nat
  stop : Nat

/-- a document; `attrs` are the attributes set in the header -/
structure Document where
  header : Option Header
  attrs : List (List Char × AttrVal)
  content : Content

mutual
/-- blocks of the graph -/
inductive BVals where
  | nil
  | para (inlines : Vals) (loc : Loc × Loc) (rest : BVals)
  | ulist (marker : List Char) (items : IVals) (loc : Loc × Loc) (rest : BVals)
  | listing (delimiter : List Char) (inlines : Vals) (loc : Loc × Loc) (rest : BVals)
  | sidebar (delimiter : List Char) (blocks : BVals) (loc : Loc × Loc) (rest : BVals)
  | sect (level : Nat) (title : Vals) (blocks : BVals) (loc : Loc × Loc) (rest : BVals)
/-- list items of the graph -/
inductive IVals where
  | nil
  | item (marker : List Char) (principal : Vals) (loc : Loc × Loc) (rest : IVals)
end

/-- the header of the graph -/
structure HVal where
  title : Option Vals
  loc : Loc × Loc

/-- the document of the graph; the blocks are left out when there are none -/
structure DVal where
  attributes : Option (List (List Char × List Char))
  header : Option HVal
  blocks : Option BVals
  loc : Loc × Loc

/-- `inline_nodes.rs` `last_loc`: where the last node ends -/
def Nodes.lastEnd : Nodes → Option Nat
  | .nil => none
  | .text _ _ e rest => some (rest.lastEnd.getD e)
  | .newline _ e rest => some (rest.lastEnd.getD e)
  | .bold _ _ e rest => some (rest.lastEnd.getD e)
  | .other _ e rest => some (rest.lastEnd.getD e)

mutual
/-- `tck.rs:124-156` — `gen_block` of each block -/
def genBlocks (src : List UInt8) : Blocks → Option BVals
  | .nil => some .nil
  | .para ns a e rest => do
    let v ← nodeValues src ns
    let r ← genBlocks src rest
    some (.para v (span src a e) r)
  | .ulist is a e rest => do
    let v ← genItems src is
    let r ← genBlocks src rest
    some (.ulist ['*'] v (span src a e) r)
  | .listing _ ns a e rest => do
    let v ← nodeValues src ns
    let r ← genBlocks src rest
    some (.listing ['-', '-', '-', '-'] v (span src a e) r)
  | .sidebar _ bs a e rest => do
    let v ← genBlocks src bs
    let r ← genBlocks src rest
    some (.sidebar ['*', '*', '*', '*'] v (span src a e) r)
  | .sect .. => none
  | .other .. => none
/-- `tck.rs:158-167` — `gen_list_item` of each item -/
def genItems (src : List UInt8) : ListItems → Option IVals
  | .nil => some .nil
  | .item _ a p _ rest => do
    let v ← nodeValues src p
    let e ← p.lastEnd
    let r ← genItems src rest
    some (.item ['*'] v (span src a e) r)
end

/-- `tck.rs:105-122` — `gen_section` of each section -/
def genSects (src : List UInt8) : Sects → Option BVals
  | .nil => some .nil
  | .sect l t bs a e rest => do
    let tv ← nodeValues src t
    let v ← genBlocks src bs
    let r ← genSects src rest
    some (.sect l tv v (span src a e) r)

/-- the start of the keys that are left out -/
def derived : List Char := "_asciidork_derived_".toList

/-- `tck.rs:83-96` — the attributes of `gen_doc_header` -/
def genAttrs (attrs : List (List Char × AttrVal)) : List (List Char × List Char) :=
  (attrs.filter fun a => !derived.isPrefixOf a.1).map fun a => (a.1, match a.2 with | .str s => s | .bool _ => [])

/-- `tck.rs:97-103` — the header of `gen_doc_header` -/
def genHeader (src : List UInt8) (h : Header) : Option HVal :=
  match h.title with
  | none => some ⟨none, span src h.start h.stop⟩
  | some ns => (nodeValues src ns).map fun v => ⟨some v, span src h.start h.stop⟩

/-- `tck.rs:45-57` — the blocks of `gen_doc` -/
def genContent (src : List UInt8) : Content → Option (Option BVals)
  | .blocks .nil => some none
  | .blocks bs => (genBlocks src bs).map some
  | .sections _ ss => (genSects src ss).map some
  | .parts => none

/-- `tck.rs:37-64` — `gen_doc`; `src` is the source without blanks at its end -/
def genDoc (src : List UInt8) (d : Document) : Option DVal := do
  let h ← (match d.header with
    | none => some none
    | some h => (genHeader src h).map some : Option (Option HVal))
  let bs ← genContent src d.content
  if src.isEmpty then none
  else some ⟨d.header.map fun _ => genAttrs d.attrs, h, bs, (⟨1, 1⟩, (fromPos (src.length - 1) src).incr)⟩

end Verif.Tck

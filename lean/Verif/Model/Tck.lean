/-!
Model of the abstract semantic graph that is written for the compatibility kit of the language: `tck/src/loc.rs`, `tck/src/tck.rs:174-216`.

Modelled are the inline nodes and the locations. The graph is a tree; how it is written as JSON is not modelled.
-/
namespace Verif.Tck

/-- a line number and a column -/
structure Loc where
  line : Nat
  column : Nat
deriving DecidableEq, Repr

/-- `loc.rs:72-86` — the loop of `line_number_with_offset` over the bytes before the offset -/
def lineLoop : Loc → List UInt8 → Loc
  | l, [] => l
  | l, b :: bs => lineLoop (if b = 10 then ⟨l.line + 1, 0⟩ else ⟨l.line, l.column + 1⟩) bs

/-- `loc.rs:23-26`, `72-86` — `from_pos` -/
def fromPos (offset : Nat) (src : List UInt8) : Loc := lineLoop ⟨1, 0⟩ (src.take offset)

/-- `loc.rs:17-21` — `incr_column` -/
def Loc.incr (l : Loc) : Loc := ⟨l.line, l.column + 1⟩

/-- `loc.rs:37-56` — `from_src_loc`, `from_multi_loc` and `from_src_pair`: the first and the last position of a range of bytes -/
def span (src : List UInt8) (start stop : Nat) : Loc × Loc := ((fromPos start src).incr, fromPos stop src)

/-- inline nodes, with the range of bytes they have in the source -/
inductive Nodes where
  | nil
  | text (s : List Char) (start stop : Nat) (rest : Nodes)
  | newline (start stop : Nat) (rest : Nodes)
  | bold (inner : Nodes) (start stop : Nat) (rest : Nodes)
  /-- all other nodes -/
  | other (start stop : Nat) (rest : Nodes)
deriving DecidableEq, Repr

/-- the nodes of the graph -/
inductive Vals where
  | nil
  | text (value : List Char) (loc : Loc × Loc) (rest : Vals)
  | strong (inlines : Vals) (loc : Loc × Loc) (rest : Vals)
deriving DecidableEq, Repr

/-- an inline node whose own nodes are already written -/
inductive Item where
  | text (s : List Char) (start stop : Nat)
  | newline (start stop : Nat)
  | bold (inner : Vals) (start stop : Nat)
  | other
deriving DecidableEq, Repr

/-- `tck.rs:197-216` — the loop of `consolidate`; the first list is what has been written, backwards -/
def consolidateLoop : List Item → List Item → List Item
  | done, [] => done.reverse
  | .text prev a _ :: done, .text cur _ e :: items => consolidateLoop (.text (prev ++ cur) a e :: done) items
  | .text prev a _ :: done, .newline _ e :: items => consolidateLoop (.text (prev ++ ['\n']) a e :: done) items
  | done, i :: items => consolidateLoop (i :: done) items

/-- `tck.rs:197-216` — `consolidate` -/
def consolidate (items : List Item) : List Item := consolidateLoop [] items

/-- `tck.rs:168-187` — `gen_inline_node`, node by node; `none`: it panics (`todo!`) -/
def emit (src : List UInt8) : List Item → Option Vals
  | [] => some .nil
  | .text s a e :: items => (emit src items).map (.text s (span src a e))
  | .bold inner a e :: items => (emit src items).map (.strong inner (span src a e))
  | .newline _ _ :: _ => none
  | .other :: _ => none

/-- the nodes of `node_values`, with their own nodes written first. (In the code a node is written when it is reached; both panic for the
same nodes.) -/
def items (src : List UInt8) : Nodes → Option (List Item)
  | .nil => some []
  | .text s a e rest => (items src rest).map (.text s a e :: ·)
  | .newline a e rest => (items src rest).map (.newline a e :: ·)
  | .bold inner a e rest => do
    let is ← items src inner
    let vs ← emit src (consolidate is)
    let rest ← items src rest
    some (.bold vs a e :: rest)
  | .other _ _ rest => (items src rest).map (.other :: ·)

/-- `tck.rs:189-195` — `node_values` -/
def nodeValues (src : List UInt8) (ns : Nodes) : Option Vals := (items src ns).bind fun is => emit src (consolidate is)

end Verif.Tck

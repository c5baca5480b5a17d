import Verif.Model.Lexer
/-!
Model of `parser/src/lexer/root_lexer.rs`: a stack of sources.

Simplifications: `tmp_buf` is always `None` (it replays generated text, not source text); the file name and
level offset of a source play no role here; `u16` indices are natural numbers except in `push_source`, where the
truncation of the code is kept.
-/
namespace Verif.Lexer

/-- the part of `source_lexer.rs:7-16` used here -/
structure Src where
  bytes : List UInt8
  pos : Nat
  maxDepth : Option Nat := none
deriving DecidableEq, Repr

/-- what is left to read of a source -/
def Src.rest (s : Src) : List UInt8 := s.bytes.drop s.pos

/-- `root_lexer.rs:7-15`; the stack is kept top first -/
structure Root where
  sources : List Src
  idx : Nat
  nextIdx : Option Nat
  stack : List Nat
deriving DecidableEq, Repr

namespace Root

/-- `root_lexer.rs:25-59` -/
def new (bytes : List UInt8) : Root := ⟨[⟨bytes, 0, none⟩], 0, none, []⟩

/-- `root_lexer.rs:93-95`: an included source always ends with a newline -/
def withNewline (bytes : List UInt8) : List UInt8 :=
  if bytes.getLast? ≠ some 10 then bytes ++ [10] else bytes

/-- `root_lexer.rs:83-106` — `push_source`; `none` is the underflow of `len as u16 - 1` -/
def push (r : Root) (bytes : List UInt8) (maxDepth : Option Nat) : Option Root :=
  let sources := r.sources ++ [⟨withNewline bytes, 0, maxDepth⟩]
  if sources.length % 65536 = 0 then none
  else some { r with sources := sources, nextIdx := some (sources.length % 65536 - 1) }

/-- `root_lexer.rs:224-229` — `maybe_advance_source` -/
def maybeAdvance (r : Root) : Root :=
  match r.nextIdx with
  | some n => { r with stack := r.idx :: r.stack, idx := n, nextIdx := none }
  | none => r

/-- `root_lexer.rs:186-205` — `peek`. Outer `none`: index out of bounds. -/
def peek (r : Root) : Option (Option UInt8) :=
  match r.nextIdx with
  | some n => (r.sources[n]?).map fun s => s.rest.head?
  | none => do
    let s ← r.sources[r.idx]?
    match s.rest.head? with
    | some c => return some c
    | none =>
      match r.stack with
      | i :: _ => (r.sources[i]?).map fun s => s.rest.head?
      | [] => return none

/-- `root_lexer.rs:260-262` — `is_eof` -/
def isEof (r : Root) : Option Bool := r.peek.map Option.isNone

/-- assigning the position of the current source -/
def setPos (r : Root) (p : Nat) : Root :=
  { r with sources := r.sources.modify r.idx fun s => { s with pos := p } }

/-- `root_lexer.rs:216-221`, after `maybe_advance_source`; `stack` is the stack to pop from -/
def skipLoop (sources : List Src) : Nat → List Nat → Option Root
  | idx, stack => do
    let s ← sources[idx]?
    match s.rest with
    | _ :: _ => return setPos ⟨sources, idx, none, stack⟩ (s.pos + 1)
    | [] =>
      match stack with
      | [] => return ⟨sources, idx, none, []⟩
      | prev :: stack => skipLoop sources prev stack

/-- `root_lexer.rs:207-222` — `skip_byte` -/
def skipByte (r : Root) : Option Root :=
  let r := r.maybeAdvance
  skipLoop r.sources r.idx r.stack

/-- `root_lexer.rs:309-322`, after `maybe_advance_source`. The result carries the token and the source it is
from; no token is the end of the document. -/
def nextLoop (plugins : List (List UInt8)) : List Src → Nat → List Nat → Option (Option (Step × Nat) × Root)
  | sources, idx, stack => do
    let s ← sources[idx]?
    let (t, pos) ← nextToken s.bytes plugins s.pos
    let sources := (setPos ⟨sources, idx, none, stack⟩ pos).sources
    match t with
    | some t => return (some (t, idx), ⟨sources, idx, none, stack⟩)
    | none =>
      match stack with
      | [] => return (none, ⟨sources, idx, none, []⟩)
      | prev :: stack => nextLoop plugins sources prev stack
termination_by _ _ stack => stack.length

/-- `root_lexer.rs:289-323` — `next_token` -/
def next (plugins : List (List UInt8)) (r : Root) : Option (Option (Step × Nat) × Root) :=
  let r := r.maybeAdvance
  nextLoop plugins r.sources r.idx r.stack

/-- `\n` or `\r` (`source_lexer.rs:276-278`) -/
def isNl (b : UInt8) : Bool := b == 10 || b == 13

/-- `source_lexer.rs:143-156` — `consume_empty_lines`: each round skips a `\r` and/or a `\n`, so all leading
`\r` and `\n` bytes are skipped. -/
def srcConsume (s : Src) : Nat := scan isNl s.bytes s.pos

/-- `root_lexer.rs:232-239`, after `maybe_advance_source` -/
def consumeLoop : List Src → Nat → List Nat → Option Root
  | sources, idx, stack => do
    let s ← sources[idx]?
    let r := setPos ⟨sources, idx, none, stack⟩ (srcConsume s)
    if srcConsume s = s.bytes.length then
      match stack with
      | [] => return r
      | prev :: stack => consumeLoop r.sources prev stack
    else return r
termination_by _ _ stack => stack.length

/-- `root_lexer.rs:231-240` — `consume_empty_lines` -/
def consumeEmpty (r : Root) : Option Root :=
  let r := r.maybeAdvance
  consumeLoop r.sources r.idx r.stack

/-- `root_lexer.rs:333-341` — `max_include_depth`: the *last* source with a depth wins -/
def maxIncludeDepth (r : Root) : Option (Nat × Nat) :=
  (r.sources.zipIdx).foldl (fun cur (s, i) => (s.maxDepth.map fun d => (d, i)).or cur) none

/-- `includes/process_includes.rs:226-237` — `exceeded_max_include_depth`; outer `none` is the `u16` overflow of
`rel_depth + stack_depth` -/
def exceeded (r : Root) (ctxMax : Nat) : Option (Option Nat) :=
  let (rel, stackDepth) := r.maxIncludeDepth.getD (ctxMax, 0)
  if rel + stackDepth ≥ 65536 then none
  else if r.idx + 1 > min (rel + stackDepth) ctxMax then some (some rel) else some none

end Root
end Verif.Lexer

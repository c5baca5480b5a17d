import Verif.Model.RootLexer
/-!
Specification: the reader of a document with includes is the reader of one flat text, in which an include
inserts its text at the current reading position.
-/
namespace Verif.Lexer

/-- what the parser does with the root lexer -/
inductive ReadOp where
  /-- an include resolved to these bytes -/
  | push (bytes : List UInt8) (depth : Option Nat)
  | nextToken
  | skipByte
  | consumeEmpty

/-- One operation on the flat text: what is left before, the lexeme delivered (if any), what is left after. -/
inductive FlatStep : ReadOp → List UInt8 → Option (List UInt8) → List UInt8 → Prop where
  /-- the included text, made to end with a newline, is inserted at the reading position -/
  | push (bytes d rem) : FlatStep (.push bytes d) rem none
      ((if bytes.getLast? = some 10 then bytes else bytes ++ [10]) ++ rem)
  /-- a token is a non-empty piece of the text, taken from its front -/
  | token (lexeme rem) : lexeme ≠ [] → FlatStep .nextToken (lexeme ++ rem) (some lexeme) rem
  /-- the end is reported only when nothing is left -/
  | eof : FlatStep .nextToken [] none []
  | skip (b rem) : FlatStep .skipByte (b :: rem) none rem
  | skipEof : FlatStep .skipByte [] none []
  /-- exactly the leading line ends are skipped -/
  | empty (nl rem) : (∀ b ∈ nl, b = 10 ∨ b = 13) → (∀ b, rem.head? = some b → b ≠ 10 ∧ b ≠ 13) →
      FlatStep .consumeEmpty (nl ++ rem) none rem

/-- a sequence of operations on the flat text and what each delivered -/
inductive FlatRun : List ReadOp → List UInt8 → List (Option (List UInt8)) → List UInt8 → Prop where
  | nil (rem) : FlatRun [] rem [] rem
  | cons {op ops rem c rem' cs rem''} : FlatStep op rem c rem' → FlatRun ops rem' cs rem'' →
      FlatRun (op :: ops) rem (c :: cs) rem''

/-- an include is read from before the next one is pushed -/
def Alternating : Bool → List ReadOp → Prop
  | _, [] => True
  | pending, .push _ _ :: ops => pending = false ∧ Alternating true ops
  | _, _ :: ops => Alternating false ops

/-- the number of includes in a run -/
def pushes : List ReadOp → Nat
  | [] => 0
  | .push _ _ :: ops => pushes ops + 1
  | _ :: ops => pushes ops

/-- one operation on the root lexer -/
def Root.op (plugins : List (List UInt8)) (r : Root) : ReadOp → Option (Option (List UInt8) × Root)
  | .push b d => (r.push b d).map fun r => (none, r)
  | .skipByte => r.skipByte.map fun r => (none, r)
  | .consumeEmpty => r.consumeEmpty.map fun r => (none, r)
  | .nextToken => do
    let (t, r') ← r.next plugins
    match t with
    | none => return (none, r')
    | some (t, i) =>
      let s ← r'.sources[i]?
      let lexeme ← slice s.bytes t.start t.stop
      return (some lexeme, r')

/-- a sequence of operations on the root lexer -/
def Root.run (plugins : List (List UInt8)) : Root → List ReadOp → Option (List (Option (List UInt8)) × Root)
  | r, [] => some ([], r)
  | r, op :: ops => do
    let (o, r) ← r.op plugins op
    let (os, r) ← run plugins r ops
    return (o :: os, r)

/-- the sources being read, innermost first -/
def Root.live (r : Root) : List Nat := r.nextIdx.toList ++ r.idx :: r.stack

/-- how deeply the source being read is nested in includes -/
def Root.nesting (r : Root) : Nat := r.live.length - 1

/-- A run in which, as in `process_includes.rs:226-237`, an include is only pushed when the depth check passes
(otherwise it is refused and nothing changes). The log lists, for each accepted include, the source containing
the directive. `none`: panic. -/
def Root.runGuarded (plugins : List (List UInt8)) (ctxMax : Nat) :
    Root → List ReadOp → Option (List Nat × Root)
  | r, [] => some ([], r)
  | r, .push b d :: ops => do
    match ← r.exceeded ctxMax with
    | some _ => runGuarded plugins ctxMax r ops
    | none =>
      let (_, r') ← r.op plugins (.push b d)
      let (log, r'') ← runGuarded plugins ctxMax r' ops
      return (r.idx :: log, r'')
  | r, op :: ops => do
    let (_, r) ← r.op plugins op
    runGuarded plugins ctxMax r ops

/-- everything left to read: the rest of each source being read, innermost first -/
def Root.flat (r : Root) : List UInt8 :=
  r.live.flatMap fun i => ((r.sources[i]?).map Src.rest).getD []

end Verif.Lexer

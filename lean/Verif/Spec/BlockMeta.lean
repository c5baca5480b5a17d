import Verif.Model.BlockMeta
/-!
Specification of block metadata: what an author writes, and the blocks that should come of it.
-/
namespace Verif.BlockMeta

/-- a line of metadata, or a comment among them -/
inductive MetaLine where
  | attrs (n : Nat) (empty : Bool)
  | anchor (n : Nat)
  | title (n : Nat)
  | comment
deriving DecidableEq, Repr

def MetaLine.line : MetaLine → Line
  | .attrs n e => .attrs n e
  | .anchor n => .anchor n
  | .title n => .title n
  | .comment => .comment

/-- the line says something: it is no comment and no empty list -/
def MetaLine.says : MetaLine → Bool
  | .attrs _ e => !e
  | .anchor _ => true
  | .title _ => true
  | .comment => false

/-- what is written in one chunk -/
inductive Written where
  /-- only comments -/
  | comments (more : Nat)
  /-- comments, metadata, and the lines of a block, of which the first is text -/
  | block (lead : Nat) (metas : List MetaLine) (first : Nat) (more : List Line)
  /-- metadata with nothing after it -/
  | stray (lead : Nat) (first : MetaLine) (metas : List MetaLine)
deriving DecidableEq, Repr

def Written.lines : Written → List Line
  | .comments k => List.replicate (k + 1) .comment
  | .block k ms n more => List.replicate k .comment ++ ms.map (·.line) ++ .text n :: more
  | .stray k m ms => List.replicate k .comment ++ (m :: ms).map (·.line)

/-- Comments among the metadata come after something that says something. -/
def commentsAfter (ms : List MetaLine) : Prop := ∀ a b, ms = a ++ .comment :: b → ∃ m ∈ a, m.says = true

/-- the attribute lists and anchors, in order -/
def attrsOf (ms : List MetaLine) : List (Nat × Bool) :=
  ms.filterMap fun | .attrs n e => some (n, e) | .anchor n => some (n, false) | _ => none

/-- the last title -/
def titleOf (ms : List MetaLine) : Option Nat :=
  (ms.filterMap fun | .title n => some n | _ => none).getLast?

/-- the blocks that should come of it -/
def Written.blocks : Written → List Block
  | .comments _ => [.comment]
  | .block _ ms n more => [.block ⟨attrsOf ms, titleOf ms⟩ (.text n :: more)]
  | .stray _ _ _ => []

def Written.isStray : Written → Bool
  | .stray _ _ _ => true
  | _ => false

def Written.ok : Written → Prop
  | .comments _ => True
  | .block _ ms _ _ => commentsAfter ms
  | .stray _ m ms => m ≠ .comment ∧ commentsAfter (m :: ms)

end Verif.BlockMeta

import Verif.Spec.Directives
import Verif.Spec.Ifeval
import Verif.Model.DirText
/-! What a document with conditionals looks like as a text. -/
namespace Verif.Directives
open Verif.Ifeval (Op Value Ordered)

/-- a line that says where a conditional starts (or is one), or where it ends -/
def IsConditional (line : List Char) : Prop :=
  (∃ start ∈ ["ifdef::", "ifndef::"], ∃ names text, line = start.toList ++ names ++ '[' :: (text ++ [']']) ∧ 2 ≤ names.length ∧ '[' ∉ names) ∨
  ∃ target, line = "endif::".toList ++ target ++ ['[', ']']

/-- a line that starts like a conditional, but is none: something is missing or too much -/
structure NoConditional (t : List Char) : Prop where
  line : '\n' ∉ t ∧ '\r' ∉ t
  noRef : '{' ∉ t
  start : ∃ start ∈ ["ifdef::", "ifndef::", "endif::"], start.toList <+: t
  isNone : ¬ IsConditional t

/-- UTF-8 -/
def encode (cs : List Char) : List UInt8 := cs.flatMap String.utf8EncodeChar

/-- there is no directive in the text -/
def NoDirective (t : List Char) : Prop :=
  ∀ d ∈ ["include::", "ifdef::", "ifndef::", "endif::", "ifeval::", "asciidorkinclude::"], ¬ d.toList <:+: t

/-- a line of text: without attribute references and directives, and no attribute entry -/
structure PlainText (t : List Char) : Prop where
  line : '\n' ∉ t ∧ '\r' ∉ t
  noRef : '{' ∉ t
  noEntry : t.head? ≠ some ':'
  noDirective : NoDirective t

/-- attributes as they may be written: two characters at least, without white space -/
structure Names.Written (n : Names) : Prop where
  long : 2 ≤ n.text.length
  chars : ∀ c ∈ n.text, Regex.space c = false ∧ c ≠ '[' ∧ c ≠ '{'
  noDirective : NoDirective n.text

/-- one side of a comparison -/
inductive Operand where
  /-- a number, with a minus sign or without -/
  | int (minus : Bool) (n : Nat)
  /-- a text in quotes -/
  | str (quote : Char) (s : List Char)

/-- as it is written -/
def Operand.text : Operand → List Char
  | int minus n => (if minus then ['-'] else []) ++ Nat.toDigits 10 n
  | str q s => q :: (s ++ [q])

/-- what it stands for -/
def Operand.value {F : Type} : Operand → Value F
  | int minus n => .int (if minus then -n else n)
  | str _ s => .str s

/-- numbers are not too large, texts are in single or double quotes -/
def Operand.Ok : Operand → Prop
  | int _ n => n < 2 ^ 63
  | str q s => (q = '"' ∨ q = '\'') ∧ '\n' ∉ s ∧ '\r' ∉ s ∧ '{' ∉ s ∧ NoDirective s

/-- a comparison, with spaces around the operator -/
structure Comparison where
  left : Operand
  op : Op
  right : Operand
  before : Nat
  after : Nat

/-- as it is written -/
def Comparison.text (c : Comparison) : List Char :=
  c.left.text ++ List.replicate c.before ' ' ++ c.op.spelling.toList ++ List.replicate c.after ' ' ++ c.right.text

/-- the left side contains no characters of operators -/
def Comparison.Ok (c : Comparison) : Prop :=
  c.left.Ok ∧ c.right.Ok ∧ ∀ x ∈ c.left.text, x ∉ ['=', '!', '<', '>']

/-- the document can be written as a text, and the truth values of its `ifeval` blocks are those of the comparisons -/
def Doc.Written {F : Type} (pcmp : F → F → Option Ordering) : Doc → Prop
  | nil => True
  | text t rest => PlainText t ∧ rest.Written pcmp
  | oneLine _ a c rest => a.Written ∧ PlainText c ∧ rest.Written pcmp
  | block _ a body _ rest => a.Written ∧ body.Written pcmp ∧ rest.Written pcmp
  | evalBlock h e body rest =>
    (∃ c : Comparison, c.Ok ∧ e = c.text ∧ ∃ o, Ordered pcmp c.left.value c.right.value o ∧ h = c.op.means o) ∧
      body.Written pcmp ∧ rest.Written pcmp

/-- the document as a text, each line with the end of line `nl` -/
def Doc.source (nl : List UInt8) (doc : Doc) : List UInt8 := doc.render.flatMap fun l => encode l.text ++ nl

end Verif.Directives

import Verif.Model.TocCheck
import Verif.Spec.Eval
import Verif.Spec.Lexer
/-!
What a document asks for and has: the places of tables of contents. And what a diagnostic underlines.
-/
namespace Verif.Spec.TocCheck
open Verif.Ast Verif.TocCheck Verif.Diagnostics

/-- the values of the attribute `toc` and what they ask for -/
def places : List (Value × TocPosition) :=
  [(.bool true, .auto), (.str "auto", .auto), (.str "left", .left), (.str "right", .right), (.str "preamble", .preamble),
    (.str "macro", .byMacro)]

/-- a block is the macro `toc::[]`, or has it somewhere inside, but not in the cells of tables, which are documents of their own -/
inductive MacroIn : Block → Prop
  | here {info t a c} : info.context = .tableOfContents → MacroIn (.mk info t a c .empty)
  | compound {info t a c bs b} : b ∈ bs → MacroIn b → MacroIn (.mk info t a c (.compound bs))
  | item {info t a c v items p bs b} : Item.plain p bs ∈ items → b ∈ bs → MacroIn b → MacroIn (.mk info t a c (.list v items))
  | descBlock {info t a c v items p e d bs b} : Item.desc p e d bs ∈ items → b ∈ bs → MacroIn b →
      MacroIn (.mk info t a c (.list v items))
  | descText {info t a c v items p e bs b} : Item.desc p e (some b) bs ∈ items → MacroIn b → MacroIn (.mk info t a c (.list v items))
  | sect {info t a c si h bs b} : b ∈ bs → MacroIn b → MacroIn (.mk info t a c (.section (.mk si h bs)))

def sectBlocks : Sect → List Block | .mk _ _ bs => bs
def partBlocks : Part → List Block | .mk _ _ intro ss => intro.getD [] ++ ss.flatMap sectBlocks

/-- the outermost blocks of a document -/
def tops : DocContent → List Block
  | .blocks bs => bs
  | .sections p ss => p.getD [] ++ ss.flatMap sectBlocks
  | .parts p o ps c => p.getD [] ++ o.flatMap sectBlocks ++ ps.flatMap partBlocks ++ c.flatMap sectBlocks

/-- the document has the macro -/
def HasMacro (content : DocContent) : Prop := ∃ b ∈ tops content, MacroIn b

/-- the document is a book in parts without a preamble -/
def bareParts : DocContent → Bool
  | .parts none .. => true
  | _ => false

/-- a source has a line, in front of which there are `n` others, at a place -/
def LineAt (src line : List UInt8) (n start : Nat) : Prop :=
  ∃ before after, src = before ++ line ++ after ∧ start = before.length ∧ n = before.count 10 ∧
    (before = [] ∨ before.getLast? = some 10) ∧ (after = [] ∨ after.head? = some 10 ∨ after.head? = some 13) ∧
    10 ∉ line ∧ 13 ∉ line

/-- what a diagnostic underlines -/
def underlined (d : Diagnostic) : List UInt8 := (d.line.drop d.start).take d.width

/-- it underlines nothing beyond its line -/
def Within (d : Diagnostic) : Prop := d.start + d.width ≤ d.line.length

/-- a diagnostic is about a whole line of the source, without white space at its end -/
def About (d : Diagnostic) (line : List UInt8) (n : Nat) : Prop :=
  d.lineNum = n + 1 ∧ Lexer.TrimmedEnd line d.line ∧ underlined d = d.line ∧ Within d

end Verif.Spec.TocCheck

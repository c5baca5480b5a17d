import Verif.Model.InlineText
import Verif.Spec.Phrases
/-!
Specification: a paragraph of text lines and comment lines.
-/
namespace Verif.Inlines

/-- a line of text, or any line of tokens that is a comment -/
inductive PLine where
  | text (s : List Char)
  | comment (l : Line)

/-- the tokens of the line -/
def PLine.line : PLine → Line
  | .text s => Line.new (tokensOf (String.ofList s))
  | .comment l => l

/-- text lines are plain and not empty, comment lines are comments -/
def PLine.ok : PLine → Bool
  | .text s => !s.isEmpty && s.all isPlain && noRuns s && !s.contains '\n'
  | .comment l => isComment l

/-- the text lines -/
def textsOf : List PLine → List (List Char)
  | [] => []
  | .text s :: ps => s :: textsOf ps
  | .comment _ :: ps => textsOf ps

/-- comments and discarded nodes are not shown -/
def isShown : Node → Bool
  | .leaf (.lineComment _) => false
  | .leaf .discarded => false
  | _ => true

/-- text lines with line ends between them -/
def linesNodes : List (List Char) → List Node
  | [] => []
  | [s] => [.leaf (.text s)]
  | s :: t :: r => .leaf (.text s) :: .leaf .newline :: linesNodes (t :: r)

end Verif.Inlines

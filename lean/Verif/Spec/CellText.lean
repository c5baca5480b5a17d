import Verif.Model.CellText
/-!
What the paragraphs of a cell are.
-/
namespace Verif.Spec.CellText
open Verif.CellText

/-- paragraphs, with a blank line between each and the next -/
def together {α : Type} : List (List (Node α)) → List (Node α)
  | [] => []
  | [p] => p
  | p :: ps => p ++ [.newline, .newline] ++ together ps

/-- there is no blank line in it -/
def NoBlank {α : Type} (p : List (Node α)) : Prop := ∀ a b, p ≠ a ++ [.newline, .newline] ++ b

/-- a paragraph: there is something in it, it has no blank line, and neither starts nor ends with a newline -/
def IsParagraph {α : Type} (p : List (Node α)) : Prop :=
  p ≠ [] ∧ NoBlank p ∧ (∀ q, p ≠ .newline :: q) ∧ ∀ q, p ≠ q ++ [.newline]

end Verif.Spec.CellText

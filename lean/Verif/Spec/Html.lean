import Verif.Model.Html
/-! Specification vocabulary for HTML output. -/
namespace Verif.Spec.Html
open Verif.Ast Verif.Html

/-- neither an opening nor a closing tag -/
def isTag : Tok → Bool
  | .opening _ | .closing _ => true
  | _ => false

/-- Well bracketed output: texts and void elements, and elements that are opened
and closed around well bracketed output. -/
inductive Balanced : List Tok → Prop
  | nil : Balanced []
  | tok (t : Tok) (h : isTag t = false) : Balanced [t]
  | element (t : Tag) {inner : List Tok} : Balanced inner → Balanced (.opening t :: (inner ++ [.closing t]))
  | append {as bs : List Tok} : Balanced as → Balanced bs → Balanced (as ++ bs)

/-- Wherever the link of a cross reference is opened, all such links opened before
are closed. -/
def NoNestedXref (out : List Tok) : Prop :=
  ∀ pre post, out = pre ++ .opening .xrefA :: post → pre.count (.opening .xrefA) = pre.count (.closing .xrefA)

end Verif.Spec.Html

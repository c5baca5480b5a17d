import Verif.Spec.LineKinds
/-!
Specification of check boxes: the text of an item starts with `[x]`, `[*]` or `[ ]`, and white space follows.
-/
namespace Verif.Checklist
open Verif.LineKinds

/-- `Box checked text rest`: the text starts with a box, and `rest` follows it. -/
inductive Box : Bool → List Char → List Char → Prop where
  | x {w r} : w ∈ whites → Box true ('[' :: 'x' :: ']' :: w :: r) (w :: r)
  | star {w r} : w ∈ whites → Box true ('[' :: '*' :: ']' :: w :: r) (w :: r)
  | empty {b w r} : b ∈ whites → w ∈ whites → Box false ('[' :: b :: ']' :: w :: r) (w :: r)

/-- The items of unordered lists start with a dash or with stars. -/
def Unordered : Lists.Marker → Prop
  | .dash | .star _ => True
  | _ => False

end Verif.Checklist

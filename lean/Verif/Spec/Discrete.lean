import Verif.Spec.Sections
/-! Which headings became sections, and which stayed blocks. -/
namespace Verif.Spec.Discrete
open Verif.Sections

/-- a heading marked `[discrete]` or `[float]` -/
def discrete : Item → Bool
  | .heading _ _ _ d => d
  | _ => false

/-- a heading with no such mark -/
def ordinary : Item → Bool
  | .heading _ _ _ d => !d
  | _ => false

mutual
/-- The headings of all sections in a block, however deep. -/
def heads : Node → List Item
  | .leaf _ => []
  | .sect i _ inner => i :: headsAll inner
  | .compound _ _ inner => headsAll inner
def headsAll : List Node → List Item
  | [] => []
  | b :: bs => heads b ++ headsAll bs
end

mutual
/-- The plain blocks in a block, however deep, in order. -/
def leaves : Node → List Item
  | .leaf i => [i]
  | .sect _ _ inner => leavesAll inner
  | .compound _ _ inner => leavesAll inner
def leavesAll : List Node → List Item
  | [] => []
  | b :: bs => leaves b ++ leavesAll bs
end

mutual
/-- The plain blocks that are not inside a delimited block. -/
def openLeaves : Node → List Item
  | .leaf i => [i]
  | .sect _ _ inner => openLeavesAll inner
  | .compound _ _ _ => []
def openLeavesAll : List Node → List Item
  | [] => []
  | b :: bs => openLeaves b ++ openLeavesAll bs
end

end Verif.Spec.Discrete

import Verif.Spec.Sections
/-! Specification: what is to be complained about in the structure of a document. -/
namespace Verif.Spec.Sections
open Verif.Sections

/-- special sections that have no sections in them -/
def childless : List SpecialSection := [.colophon, .dedication, .glossary, .bibliography]

/-- titles of the sections that are directly among the blocks -/
def sectionTitles (bs : List Node) : List Nat :=
  bs.filterMap fun | .sect (.heading _ t _ _) _ _ => some t | _ => none

mutual
/-- What is wrong in a block that stands in a section of this level, in the order of the source: a section of level 0; a section more
than one level below the one around it; a section in a special section that has none (after what is wrong inside); a delimited block
that is not closed (after what is wrong inside). -/
def complaints (level : Nat) : Node → List Err
  | .leaf _ => []
  | .compound k closed inner => complaintsAll level inner ++ if closed then [] else [.unclosed k]
  | .sect (.heading _ t sp _) l inner =>
    (if l = 0 then [.levelZero t] else []) ++ (if level + 1 < l then [.outOfSequence t] else []) ++ complaintsAll l inner ++
      (if sp.any (childless.contains ·) then (sectionTitles inner).map .nestedSpecial else [])
  | .sect _ l inner => complaintsAll l inner
def complaintsAll (level : Nat) : List Node → List Err
  | [] => []
  | b :: bs => complaints level b ++ complaintsAll level bs
end

/-- what is wrong in a part: it must have sections -/
def partComplaints (p : Part) : List Err :=
  complaintsAll 0 p.intro ++ complaintsAll 0 p.sections ++
    match p.title with
    | .heading _ t _ _ => if p.sections = [] then [.emptyPart t] else []
    | _ => []

/-- what is wrong in a document -/
def docComplaints : Doc → List Err
  | .blocks bs => complaintsAll 0 bs
  | .sections pre secs => complaintsAll 0 pre ++ complaintsAll 0 secs
  | .parts pre opening parts closing =>
    complaintsAll 0 pre ++ complaintsAll 0 opening ++ parts.flatMap partComplaints ++ complaintsAll 0 closing

end Verif.Spec.Sections

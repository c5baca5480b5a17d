import Verif.Model.Sections
/-! What the section tree of a document should be, independent of how it is
parsed. -/
namespace Verif.Spec.Sections
open Verif.Sections

mutual
/-- The source items a block was made of, in order. -/
def items : Node → List Item
  | .leaf i => [i]
  | .sect i _ inner => i :: itemsAll inner
  | .compound k closed inner => .delim k :: itemsAll inner ++ (if closed then [.delim k] else [])
def itemsAll : List Node → List Item
  | [] => []
  | b :: bs => items b ++ itemsAll bs
end

/-- The items of a part. -/
def partItems (p : Part) : List Item := p.title :: itemsAll p.intro ++ itemsAll p.sections

/-- The items of a document. -/
def docItems : Doc → List Item
  | .blocks bs => itemsAll bs
  | .sections pre secs => itemsAll pre ++ itemsAll secs
  | .parts pre opening parts closing =>
    itemsAll pre ++ itemsAll opening ++ (parts.map partItems).flatten ++ itemsAll closing

/-- The items of a source. -/
def sourceItems (chunks : List (Item × List Item)) : List Item := (chunks.map fun c => c.1 :: c.2).flatten

mutual
/-- Every section in here is deeper than `l` and contains only deeper ones. -/
def deeper (l : Nat) : Node → Prop
  | .leaf _ => True
  | .sect _ l' inner => l < l' ∧ deeperAll l' inner
  | .compound _ _ inner => deeperAll l inner
def deeperAll (l : Nat) : List Node → Prop
  | [] => True
  | b :: bs => deeper l b ∧ deeperAll l bs
end

mutual
/-- Every section in here is exactly one level below `l`, and so on inside. -/
def stepwise (l : Nat) : Node → Prop
  | .leaf _ => True
  | .sect _ l' inner => l' = l + 1 ∧ stepwiseAll l' inner
  | .compound _ _ inner => stepwiseAll l inner
def stepwiseAll (l : Nat) : List Node → Prop
  | [] => True
  | b :: bs => stepwise l b ∧ stepwiseAll l bs
end

/-- Sections of a list that stands under a title: each contains deeper ones only. -/
def nested : Node → Prop
  | .leaf _ => True
  | .sect _ l inner => deeperAll l inner
  | .compound _ _ inner => deeperAll 1 inner

/-- The sections of a document that stand directly under its title or a part. -/
def topSections : Doc → List Node
  | .blocks bs => bs
  | .sections pre secs => pre ++ secs
  | .parts pre opening parts closing => pre ++ opening ++ (parts.map fun p => p.intro ++ p.sections).flatten ++ closing

mutual
/-- The table of contents of a tree: its sections written with a level of at
most `depth`, each with the entries of its own sections. -/
def tocOf (depth : Nat) : Node → List Toc
  | .leaf _ => []
  | .sect (.heading l t _ _) _ inner => if l ≤ depth then [.node l t (tocOfAll depth inner)] else tocOfAll depth inner
  | .sect _ _ inner => tocOfAll depth inner
  | .compound _ _ inner => tocOfAll depth inner
def tocOfAll (depth : Nat) : List Node → List Toc
  | [] => []
  | b :: bs => tocOf depth b ++ tocOfAll depth bs
end

mutual
/-- Entries of a table of contents in reading order: level and title. -/
def entry : Toc → List (Nat × Nat)
  | .node l t ch => (l, t) :: entries ch
def entries : List Toc → List (Nat × Nat)
  | [] => []
  | n :: ns => entry n ++ entries ns
end

mutual
/-- The sections a table of contents should list, in source order: those written
with a level of at most `depth` that do not skip a level. `l` is the level of
the surrounding section. -/
def listed (depth l : Nat) : Node → List (Nat × Nat)
  | .leaf _ => []
  | .sect (.heading a t _ _) l' inner => (if l' ≤ l + 1 ∧ a ≤ depth then [(a, t)] else []) ++ listedAll depth l' inner
  | .sect _ l' inner => listedAll depth l' inner
  | .compound _ _ inner => listedAll depth l inner
def listedAll (depth l : Nat) : List Node → List (Nat × Nat)
  | [] => []
  | b :: bs => listed depth l b ++ listedAll depth l bs
end

/-- The title line of a part. -/
def partEntry (p : Part) : List (Nat × Nat) :=
  match p.title with
  | .heading a t _ _ => [(a, t)]
  | _ => []

/-- The same for a whole document. -/
def docListed (depth : Nat) : Doc → List (Nat × Nat)
  | .blocks bs => listedAll depth 0 bs
  | .sections pre secs => listedAll depth 0 pre ++ listedAll depth 0 secs
  | .parts pre opening parts closing => listedAll depth 0 pre ++ listedAll depth 0 opening ++
      (parts.map fun p => partEntry p ++ listedAll depth 0 p.intro ++ listedAll depth 0 p.sections).flatten ++
      listedAll depth 0 closing

/-- The table of contents of a whole document. -/
def docToc (depth : Nat) : Doc → List Toc
  | .blocks bs => tocOfAll depth bs
  | .sections pre secs => tocOfAll depth pre ++ tocOfAll depth secs
  | .parts pre opening parts closing => tocOfAll depth pre ++ tocOfAll depth opening ++
      (parts.map fun p => match p.title with
        | .heading a t _ _ => [.node a t (tocOfAll depth p.intro ++ tocOfAll depth p.sections)]
        | _ => []).flatten ++ tocOfAll depth closing

end Verif.Spec.Sections

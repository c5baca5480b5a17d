import Verif.Model.LineKinds
/-!
Model of the check boxes of list items: `parser/src/line.rs:875-894`, `parser/src/tasks/parse_list.rs:71-84`.
-/
namespace Verif.Checklist
open Verif Verif.Lexer Verif.Directives Verif.LineKinds

/-- `line.rs:875-894` — `consume_checklist_item`: whether the box is checked, and the tokens that are left. The location of the box is not
modelled. -/
def consumeChecklistItem (l : List Tok) : Option (Bool × List Tok) :=
  if kindAt l 0 ≠ some .OpenBracket || !(kindAt l 2 = some .CloseBracket && kindAt l 3 = some .Whitespace) then none
  else match l[1]? with
    | some t =>
      if t.kind = .Star then some (true, l.drop 3)
      else if t.kind = .Whitespace then some (false, l.drop 3)
      else if t.kind = .Word ∧ t.lexeme = bs "x" then some (true, l.drop 3)
      else none
    | none => none

/-- what is known of an item of a list: its marker, its check box, and the text that is left -/
structure Item where
  marker : Lists.Marker
  box : Option Bool
  text : List Char
deriving DecidableEq, Repr

/-- `parse_list.rs:64-84` — the start of `parse_list_item`, for items of unordered, ordered and callout lists: only items of unordered lists have
boxes. The variant of the list is that of the marker of the item (`ast/src/list.rs:114-126`), as an item continues a list only if its
marker does. `none`: not such an item. -/
def listItem (word : Char → Bool) (l : List Tok) : Option Item :=
  match listMarker word l with
  | some m =>
    if m.isDescription then none
    else
      let rest := itemRest l
      match m with
      | .dash | .star _ =>
        match consumeChecklistItem rest with
        | some (checked, left) => some ⟨m, some checked, lineText left⟩
        | none => some ⟨m, none, lineText rest⟩
      | _ => some ⟨m, none, lineText rest⟩
  | none => none

end Verif.Checklist

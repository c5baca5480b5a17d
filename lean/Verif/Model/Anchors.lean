/-!
Anchors: the table that maps ids to the things cross references may point at.

Models `parser/src/tasks/anchors.rs:3-44` (`insert_anchor`, `anchor_from`),
`parser/src/tasks/parse_section.rs:111-128` and
`parser/src/tasks/parse_book_part.rs:36-47` (headings enter the table
directly).

Simplifications: texts are characters instead of inline nodes; the error
message is replaced by the id and the place it is reported at.
-/
namespace Verif.Anchors

/-- `ast/src/anchor.rs` `Anchor`: where it was written (`none` for headings),
its texts and whether it is a bibliography entry. -/
structure Anchor where
  loc : Option (Nat × Nat × Nat)
  reftext : Option String
  title : String
  source : Nat
  biblio : Bool
  deriving DecidableEq, Repr

/-- `ast/src/document.rs:14` `anchors: HashMap<id, Anchor>` as an association
list in which an id occurs at most once. -/
abbrev Table := List (String × Anchor)

/-- `HashMap::get`. -/
def lookup (t : Table) (id : String) : Option Anchor :=
  match t with
  | [] => none
  | (k, a) :: t => if k = id then some a else lookup t id

/-- `HashMap::insert`: replaces the value of a key that is present. -/
def put (t : Table) (id : String) (a : Anchor) : Table :=
  match t with
  | [] => [(id, a)]
  | (k, b) :: t => if k = id then (k, a) :: t else (k, b) :: put t id a

/-- The part of the parser that registering anchors touches: the table, the
collected diagnostics (`Parser::errors`, here ids reported as duplicated). -/
structure State where
  table : Table := []
  errors : List String := []
  deriving DecidableEq, Repr

/-- `parser/src/tasks/anchors.rs:4-28` `insert_anchor` together with
`diagnostic.rs:176-183` `handle_err`: in strict mode a duplicate ends parsing,
otherwise it is recorded. -/
def insertAnchor (strict : Bool) (s : State) (id : String) (a : Anchor) : Except String State :=
  if ((lookup s.table id).filter fun b => b.loc != a.loc).isSome then
    if strict then .error id else .ok { s with errors := s.errors ++ [id] }
  else .ok { s with table := put s.table id a }

/-- `parse_section.rs:111-128`, `parse_book_part.rs:36-47`: a heading with an
id enters the table without looking. -/
def insertHeading (s : State) (id : String) (reftext : Option String) (title : String) (source : Nat) : State :=
  { s with table := put s.table id ⟨none, reftext, title, source, false⟩ }

/-- What a document does to the table, in source order. Inline anchors,
bibliography entries and spans with ids always carry their place
(`anchor_from(.., Some(loc), ..)` at all call sites). -/
inductive Event where
  | inline (id : String) (loc : Nat × Nat × Nat) (reftext : Option String) (source : Nat) (biblio : Bool)
  | heading (id : String) (reftext : Option String) (title : String) (source : Nat)
  deriving DecidableEq, Repr

def Event.id : Event → String
  | .inline id .. => id
  | .heading id .. => id

/-- One registration. `anchor_from` (`anchors.rs:30-43`) leaves the title empty. -/
def step (strict : Bool) (s : State) : Event → Except String State
  | .inline id loc reftext source biblio => insertAnchor strict s id ⟨some loc, reftext, "", source, biblio⟩
  | .heading id reftext title source => .ok (insertHeading s id reftext title source)

/-- All registrations of a document. -/
def run (strict : Bool) (s : State) : List Event → Except String State
  | [] => .ok s
  | e :: es =>
    match step strict s e with
    | .error id => .error id
    | .ok s => run strict s es

end Verif.Anchors

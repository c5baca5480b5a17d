import Verif.Model.Regex
import Verif.Model.Meta
/-!
Specification: how an attribute entry is written and what it says.
-/
namespace Verif.AttrEntry.Spec
open Verif.Regex (space)

/-- a name: letters, digits, underscores and hyphens (all of ASCII), no hyphen first -/
def Name (n : List Char) : Prop :=
  n ≠ [] ∧ n.head? ≠ some '-' ∧ ∀ c ∈ n, c.isAlphanum = true ∨ c = '_' ∨ c = '-'

instance : DecidablePred Name := fun n => inferInstanceAs (Decidable (n ≠ [] ∧ n.head? ≠ some '-' ∧ ∀ c ∈ n, c.isAlphanum = true ∨ c = '_' ∨ c = '-'))

/-- `:name:` sets an attribute, `:!name:` and `:name!:` unset it -/
inductive Form where
  | set | unsetBefore | unsetAfter
deriving DecidableEq, Repr

/-- the start of an entry -/
def opening (f : Form) (n : List Char) : List Char :=
  match f with
  | .set => ':' :: n ++ [':']
  | .unsetBefore => ':' :: '!' :: n ++ [':']
  | .unsetAfter => ':' :: n ++ ['!', ':']

/-- the lines of a value as they are written: a space and a backslash at the end of a line continue it on the next one -/
def written : List (List Char) → List Char
  | [] => []
  | [v] => v
  | v :: w :: vs => v ++ [' ', '\\', '\n'] ++ written (w :: vs)

/-- The text of a value: the lines are joined with a space, or with a line end when the text before it ends with a space and a
plus sign. -/
def joined (text : List Char) : List (List Char) → List Char
  | [] => text
  | [v] => text ++ v
  | v :: w :: vs => joined (text ++ v ++ (if [' ', '+'] <:+ text ++ v then ['\n'] else [' '])) (w :: vs)

/-- the text without the white space around it -/
def Trimmed (text v : List Char) : Prop :=
  ∃ a b, text = a ++ v ++ b ∧ (∀ c ∈ a, space c = true) ∧ (∀ c ∈ b, space c = true) ∧ (∀ c ∈ v.head?, space c = false) ∧ (∀ c ∈ v.getLast?, space c = false)

/-- what the attribute is set to: no text means that it is set (or unset) without a value -/
def meaning (f : Form) (v : List Char) : AttrValue :=
  if v = [] then .bool (f = .set) else .string (String.ofList v)

/-- a value in pieces: plain text, and references to attributes -/
inductive Piece where
  | text (s : List Char)
  | ref (name : List Char)

/-- plain text has no brace in it, the name in a reference no white space and no brace -/
def Piece.Ok : Piece → Prop
  | .text s => '{' ∉ s
  | .ref n => n ≠ [] ∧ ∀ c ∈ n, space c = false ∧ c ≠ '{' ∧ c ≠ '}'

/-- a piece as it is written -/
def Piece.source : Piece → List Char
  | .text s => s
  | .ref n => '{' :: n ++ ['}']

/-- a piece with the value of the attribute for the reference -/
def Piece.value (look : List Char → Option AttrValue) : Piece → List Char
  | .text s => s
  | .ref n => match look n with
    | some (.string s) => s.toList
    | _ => []

/-- the attribute has a text -/
def Piece.IsSet (look : List Char → Option AttrValue) : Piece → Prop
  | .text _ => True
  | .ref n => ∃ s, look n = some (.string s)

/-- words of a text: something else than white space, with white space between them -/
inductive Words : List (List Char) → List Char → Prop where
  | last (a w b : List Char) : (∀ c ∈ a ++ b, space c = true) → w ≠ [] → (∀ c ∈ w, space c = false) → Words [w] (a ++ w ++ b)
  | cons (a w : List Char) (ws : List (List Char)) (s : List Char) : (∀ c ∈ a, space c = true) → w ≠ [] → (∀ c ∈ w, space c = false) →
      (∀ c ∈ s.head?, space c = true) → Words ws s → Words (w :: ws) (a ++ w ++ s)

/-- words with a space between them -/
def spaced : List (List Char) → List Char
  | [] => []
  | [w] => w
  | w :: v :: l => w ++ ' ' :: spaced (v :: l)

/-- underscores stand for spaces -/
def names (l : List Char) : List Char := l.map fun c => if c = '_' then ' ' else c

end Verif.AttrEntry.Spec

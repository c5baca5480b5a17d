import Verif.Model.Inlines
import Verif.Model.Regex
/-!
Specification of the macros for keys, buttons and menus: how they are written, and what a reader sees of a piece of HTML.
-/
namespace Verif.UiMacros.Spec
open Verif.Inlines Verif.TokenKind
open Verif.Regex (space)

/-- white space (`Regex.space` is the property `White_Space` of Unicode) -/
def Blank (s : List Char) : Prop := ∀ c ∈ s, space c = true


/-- a key: a plus sign, a comma, or characters that are neither white space nor one of them -/
def Key (k : List Char) : Prop :=
  k = ['+'] ∨ k = [','] ∨ (k ≠ [] ∧ ∀ c ∈ k, space c = false ∧ c ≠ '+' ∧ c ≠ ',')

/-- keys as they are written: with `+` or `,` between them, and blanks around them as one likes -/
inductive Keys : List (List Char) → List Char → Prop
  | one {k a b : List Char} : Key k → Blank a → Blank b → Keys [k] (a ++ k ++ b)
  | more {k a b s : List Char} {ks : List (List Char)} {sep : Char} : Key k → Blank a → Blank b → sep = '+' ∨ sep = ',' → Keys ks s →
      Keys (k :: ks) (a ++ k ++ b ++ sep :: s)

/-- an item of a menu: it does not start or end with white space and has no `>` in it -/
def Item (i : List Char) : Prop :=
  i ≠ [] ∧ '>' ∉ i ∧ (∀ c ∈ i.head?, space c = false) ∧ (∀ c ∈ i.getLast?, space c = false)

/-- items as they are written: with `>` between them, and blanks around them as one likes -/
inductive Items : List (List Char) → List Char → Prop
  | one {i a b : List Char} : Item i → Blank a → Blank b → Items [i] (a ++ i ++ b)
  | more {i a b s : List Char} {is : List (List Char)} : Item i → Blank a → Blank b → Items is s → Items (i :: is) (a ++ i ++ b ++ '>' :: s)

/-- The text in the brackets of a macro and what it says: a closing bracket is written with a backslash
before it; an attribute reference is followed by the tokens of its value. -/
inductive Body : List Tok → List Char → Prop
  | nil : Body [] []
  | tok {t : Tok} {l : List Tok} {s : List Char} : t.kind ≠ CloseBracket → t.kind ≠ Backslash → t.kind ≠ AttrRef → Body l s → Body (t :: l) (t.lexeme ++ s)
  | bracket {t u : Tok} {l : List Tok} {s : List Char} : t.kind = Backslash → u.kind = CloseBracket → Body l s → Body (t :: u :: l) (u.lexeme ++ s)
  | ref {t : Tok} {l : List Tok} {s : List Char} : t.kind = AttrRef → Body l s → Body (t :: l) s

/-- What a reader sees of a piece of HTML: everything but the tags. (References to characters stay as they are.) -/
def seen : Bool → List Char → List Char
  | _, [] => []
  | false, c :: l => if c = '<' then seen true l else c :: seen false l
  | true, c :: l => if c = '>' then seen false l else seen true l

/-- texts, one after the other, with something between them -/
def between (sep : List Char) : List (List Char) → List Char
  | [] => []
  | [a] => a
  | a :: b :: l => a ++ sep ++ between sep (b :: l)

end Verif.UiMacros.Spec

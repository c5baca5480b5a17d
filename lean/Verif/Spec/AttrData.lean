import Verif.Model.AttrData
import Verif.Spec.Details
/-!
What several attribute lists say together, and what a listing is.
-/
namespace Verif.Spec.AttrData
open Verif.AttrData Verif.OpenTag Verif.StartTag Verif.Spec.Details

/-- an answer is that of the first of several lists that have one -/
def FirstOf {α β : Type} (q : α → Option β) (ls : List α) (r : Option β) : Prop :=
  (r = none ∧ ∀ l ∈ ls, q l = none) ∨
  ∃ before l after v, ls = before ++ l :: after ∧ (∀ b ∈ before, q b = none) ∧ q l = some v ∧ r = some v

/-- a list has an id, a role or an option, as `[#id]`, `[.role]` and `[%option]` give them -/
def Marked (a : AList) : Prop := a.id ≠ none ∨ a.roles ≠ [] ∨ a.options ≠ []

/-- the language that a list names: the second attribute after nothing or `source`, or the first one behind ids, roles and options -/
def Language (a : AList) (lang : Str) : Prop :=
  ((a.strAt 0 = none ∨ a.strAt 0 = some "source".toList) ∧ a.strAt 1 = some lang) ∨
  (Marked a ∧ a.strAt 0 = some lang ∧ lang ≠ "source".toList ∧ lang ≠ "listing".toList)

/-- the pieces of a listing before its text; `none`: it is no source, `some none`: it is one of an unknown language -/
def listingPieces (highlight : Str) : Option (Option Str) → List Piece
  | none => [.start "pre" []]
  | some none => [.start "pre" [("class", highlight)], .start "code" []]
  | some (some lang) =>
    [.start "pre" [("class", highlight)], .start "code" [("class", "language-".toList ++ lang), ("data-lang", lang)]]

end Verif.Spec.AttrData

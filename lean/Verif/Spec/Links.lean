import Verif.Spec.Details
/-!
What a link without a text should show.
-/
namespace Verif.Spec.Links
open Verif.OpenTag

/-- the schemes that can be hidden -/
def schemes : List String := ["http", "https", "ftp", "mailto", "irc", "file"]

/-- an address is one of those schemes and something behind it -/
def Has (target rest : Str) : Prop := rest ≠ [] ∧ ∃ scheme ∈ schemes, target = scheme.toList ++ "://".toList ++ rest

/-- what a link shows: where it leads to, but without the scheme if schemes are hidden -/
def Shown (hide : Bool) (target shown : Str) : Prop :=
  (hide = true ∧ Has target shown) ∨ (shown = target ∧ ¬ (hide = true ∧ ∃ rest, Has target rest))

end Verif.Spec.Links

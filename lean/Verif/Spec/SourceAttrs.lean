import Verif.Model.SourceAttrs
/-!
Names of files.
-/
namespace Verif.Spec.SourceAttrs

/-- a name is split before its last dot; if there is none, nothing is split off -/
def SplitName (name stem suffix : List Char) : Prop :=
  name = stem ++ suffix ∧ ((suffix = [] ∧ '.' ∉ name) ∨ ∃ e, suffix = '.' :: e ∧ '.' ∉ e)

end Verif.Spec.SourceAttrs

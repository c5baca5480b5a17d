import Verif.Spec.Meta
/-!
Specification of what the arguments of the command line set.
-/
namespace Verif.CliJob

/-- What the arguments say of an attribute: the last one for it counts, unless the opposite title switch is set after it. -/
def said (k : String) : List (String × JobAttr) → Option JobAttr
  | [] => none
  | (k', j) :: rest =>
    match said k rest with
    | some j' => some j'
    | none =>
      if k' = k ∧ ¬ (∃ p ∈ rest, (k = "showtitle" ∧ p.1 = "notitle") ∨ (k = "notitle" ∧ p.1 = "showtitle")) then some j else none

/-- attributes that tell the document about its job -/
def ofJob : List String :=
  ["doctype", "safe-mode-level", "safe-mode-name", "safe-mode-unsafe", "safe-mode-safe", "safe-mode-server", "safe-mode-secure"]

end Verif.CliJob

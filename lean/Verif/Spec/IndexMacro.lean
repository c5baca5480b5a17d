import Verif.Model.IndexMacro
import Verif.Spec.AttrList
import Verif.Spec.UiMacros
/-!
Specification of the index term macros: what an author means with one.
-/
namespace Verif.IndexMacro
open Verif TokenKind AttrList
open Verif.Regex (space)
open Verif.UiMacros.Spec (Blank)

/-- the term: a word, or anything in quotation marks -/
def termOf : Written → Option (List Tk)
  | .word w => some [AttrList.word w]
  | .quoted _ v => some v
  | _ => none

/-- the name and the value of a named attribute -/
def namedOf : Written → Option (List Char × List Tk)
  | .namedWord k w => some (k, [AttrList.word w])
  | .named k _ v => some (k, v)
  | _ => none

/-- terms with commas between them and blanks around them -/
inductive Terms : List (List Char) → List Char → Prop where
  | last {a n b} : Blank a → Blank b → n ≠ [] → ',' ∉ n → (∀ c ∈ n.head?, space c = false) → (∀ c ∈ n.getLast?, space c = false) → Terms [n] (a ++ n ++ b)
  | cons {a n b ns v} : Blank a → Blank b → n ≠ [] → ',' ∉ n → (∀ c ∈ n.head?, space c = false) → (∀ c ∈ n.getLast?, space c = false) →
      Terms ns v → Terms (n :: ns) (a ++ n ++ b ++ ',' :: v)

/-- what named attributes refer to: `see` says which term to look up instead; without it `see-also` says which other terms to look up -/
inductive Refers (single : List Tk → Option (List Char)) : List (List Char × List Tk) → Ref → Prop where
  | none {l} : (∀ p ∈ l, p.1 ≠ "see".toList ∧ p.1 ≠ "see-also".toList) → Refers single l .none
  | see {l l' v s} : (∀ p ∈ l, p.1 ≠ "see".toList) → v ≠ [] → single v = some s → Refers single (l ++ ("see".toList, v) :: l') (.see s)
  | seeAlso {l l' v s ts} : (∀ p ∈ l ++ l', p.1 ≠ "see".toList) → (∀ p ∈ l, p.1 ≠ "see-also".toList) → v ≠ [] → single v = some s → Terms ts s →
      Refers single (l ++ ("see-also".toList, v) :: l') (.seeAlso ts)

/-- what the terms mean: one is shown, or up to three are hidden -/
inductive Means : Bool → List (List Tk) → Kind → Prop where
  | visible {t} : Means true [t] (.visible t)
  | one {a} : Means false [a] (.concealed a none none)
  | two {a b} : Means false [a, b] (.concealed a (some b) none)
  | three {a b c} : Means false [a, b, c] (.concealed a (some b) (some c))

end Verif.IndexMacro

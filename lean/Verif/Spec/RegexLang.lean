import Verif.Model.Regex
/-!
Specification: which texts a regular expression matches, without saying how a match is found.
-/
namespace Verif.Regex

/-- `Reads word r before text after`: the expression matches the text, between what is before it (the last character first) and
what is after it -/
inductive Reads (word : Char → Bool) : Re → List Char → List Char → List Char → Prop where
  | set {p c bf af} : p c = true → Reads word (.set p) bf [c] af
  | eps {bf af} : Reads word .eps bf [] af
  | seq {a b bf u v af} : Reads word a bf u (v ++ af) → Reads word b (u.reverse ++ bf) v af → Reads word (.seq a b) bf (u ++ v) af
  | left {a b bf u af} : Reads word a bf u af → Reads word (.alt a b) bf u af
  | right {a b bf u af} : Reads word b bf u af → Reads word (.alt a b) bf u af
  | stop {g a bf af} : Reads word (.star g a) bf [] af
  | more {g a bf u v af} : u ≠ [] → Reads word a bf u (v ++ af) → Reads word (.star g a) (u.reverse ++ bf) v af →
      Reads word (.star g a) bf (u ++ v) af
  | cap {n a bf u af} : Reads word a bf u af → Reads word (.cap n a) bf u af
  | bol {af} : Reads word .bol [] [] af
  | eol {bf} : Reads word .eol bf [] []
  | wordB {bf af} : isWord word bf.head? ≠ isWord word af.head? → Reads word .wordB bf [] af

end Verif.Regex

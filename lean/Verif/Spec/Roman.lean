/-! Reading roman numerals: a letter before a greater one is subtracted. -/
namespace Verif.Spec.Roman

/-- the value of a letter -/
def letter : Char → Int
  | 'I' => 1 | 'V' => 5 | 'X' => 10 | 'L' => 50 | 'C' => 100 | 'D' => 500 | 'M' => 1000 | _ => 0

/-- the number a numeral denotes -/
def value : List Char → Int
  | [] => 0
  | [c] => letter c
  | c :: d :: rest => (if letter c < letter d then - letter c else letter c) + value (d :: rest)

/-- the usual writing: a letter for a power of ten is repeated at most three
times, one for a half at most once -/
def Canonical (s : List Char) : Prop :=
  (∀ c ∈ "IXCM".toList, ¬ List.replicate 4 c <:+: s) ∧ (∀ c ∈ "VLD".toList, s.count c ≤ 1) ∧
  ∀ c ∈ s, c ∈ "IVXLCDM".toList

end Verif.Spec.Roman

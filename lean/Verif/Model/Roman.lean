/-! Model of the numbers printed for book parts.

`to_roman_numeral` comes from the crate `roman_numerals_fn`, whose source is not
in the repository: the digit tables below are the usual algorithm and are part of
the trusted base (DESIGN.md). -/
namespace Verif.Roman

/-- One decimal digit in roman writing, given the letters for 1, 5 and 10
(`roman_numerals_fn`, external). -/
def digit (one five ten : Char) : Nat → List Char
  | 1 => [one]
  | 2 => [one, one]
  | 3 => [one, one, one]
  | 4 => [one, five]
  | 5 => [five]
  | 6 => [five, one]
  | 7 => [five, one, one]
  | 8 => [five, one, one, one]
  | 9 => [one, ten]
  | _ => []

/-- `to_roman_numeral` (`roman_numerals_fn`, external; called at
backend/src/html/backend.rs:541): an error outside 1..3999. -/
def toRoman (n : Nat) : Option (List Char) :=
  if n = 0 ∨ 3999 < n then none
  else some (List.replicate (n / 1000) 'M' ++ digit 'C' 'D' 'M' (n / 100 % 10)
    ++ digit 'X' 'L' 'C' (n / 10 % 10) ++ digit 'I' 'V' 'X' (n % 10))

end Verif.Roman

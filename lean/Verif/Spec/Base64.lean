/-!
Independent specification of base64 (RFC 4648 §4), written with plain arithmetic and sharing nothing
with the encoder: a character stands for a number below 64, four characters stand for a 24-bit number.
-/
namespace Verif.Base64Spec

/-- RFC 4648 table 1, by code point. -/
def value (c : Char) : Option Nat :=
  let n := c.toNat
  if 65 ≤ n ∧ n ≤ 90 then some (n - 65)
  else if 97 ≤ n ∧ n ≤ 122 then some (n - 97 + 26)
  else if 48 ≤ n ∧ n ≤ 57 then some (n - 48 + 52)
  else if n = 43 then some 62
  else if n = 47 then some 63
  else none

/-- Strict decoder: groups of four, padding only in the last group and with zero spare bits. -/
def decode : List Char → Option (List Nat)
  | [] => some []
  | [w, x, '=', '='] =>
      match value w, value x with
      | some a, some b => if b % 16 = 0 then some [(a * 64 + b) / 16] else none
      | _, _ => none
  | [w, x, y, '='] =>
      match value w, value x, value y with
      | some a, some b, some c =>
        if c % 4 = 0 then
          let n := (a * 4096 + b * 64 + c) / 4
          some [n / 256, n % 256]
        else none
      | _, _, _ => none
  | w :: x :: y :: z :: rest =>
      match value w, value x, value y, value z, decode rest with
      | some a, some b, some c, some d, some tl =>
        let n := a * 262144 + b * 4096 + c * 64 + d
        some (n / 65536 :: n / 256 % 256 :: n % 256 :: tl)
      | _, _, _, _, _ => none
  | _ => none

end Verif.Base64Spec

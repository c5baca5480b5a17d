/-!
Model of the conversion of the bytes of an included file to UTF-8:
`parser/src/tasks/directives/includes/normalize_includes.rs` (`normalize_encoding`).

Simplifications: buffers are lists; 16-bit units are numbers. Trusted: `std::str::from_utf8` accepts what Lean's
`ByteArray.validateUTF8` accepts, `String::from_utf16` does what its documentation says.
-/
namespace Verif.Encoding

/-- `normalize_includes.rs:95-97`, `122-124` — an odd number of bytes is filled up with a zero -/
def pad (b : List UInt8) : List UInt8 := if b.length % 2 = 0 then b else b ++ [0]

/-- `normalize_includes.rs:99-102`, `125-128` — `chunks_exact(2)` as 16-bit units, little or big endian -/
def units (le : Bool) : List UInt8 → List Nat
  | a :: b :: r => (if le then a.toNat + 256 * b.toNat else 256 * a.toNat + b.toNat) :: units le r
  | _ => []

/-- `normalize_includes.rs:149` — `from_utf16_in`: a unit that is no surrogate is a character, a high and a low surrogate
are one, and other surrogates are errors -/
def decode16 : List Nat → Option (List Char)
  | [] => some []
  | u :: r =>
    if u < 0xD800 ∨ 0xDFFF < u then (decode16 r).map (Char.ofNat u :: ·)
    else if 0xDC00 ≤ u then none
    else match r with
      | [] => none
      | v :: r =>
        if 0xDC00 ≤ v ∧ v ≤ 0xDFFF then (decode16 r).map (Char.ofNat (0x10000 + (u - 0xD800) * 0x400 + (v - 0xDC00)) :: ·)
        else none

/-- `normalize_includes.rs:148-157` — `from_utf16_in`, the bytes of the string -/
def fromUtf16 (u : List Nat) : Option (List UInt8) := (decode16 u).map (·.flatMap String.utf8EncodeChar)

/-- `normalize_includes.rs:121-136` — `convert_utf16_le` -/
def convertLe (b : List UInt8) : Except String (List UInt8) :=
  match fromUtf16 (units true (pad b)) with
  | some r => .ok r
  | none => .error "Invalid UTF-16 (LE)"

/-- `normalize_includes.rs:71-119` — `normalize_encoding` -/
def normalize (encoding : Option String) (b : List UInt8) : Except String (List UInt8) :=
  if encoding = some "utf-16" ∨ encoding = some "utf16" ∨ encoding = some "UTF-16" ∨ encoding = some "UTF16" then convertLe b
  else if b.take 3 = [0xEF, 0xBB, 0xBF] then .ok (b.drop 3)
  else if b.take 2 = [0xFF, 0xFE] then convertLe (b.drop 2)
  else if b.take 2 = [0xFE, 0xFF] then
    match fromUtf16 (units false (pad (b.drop 2))) with
    | some r => .ok r
    | none => .error "Invalid UTF-16 (BE)"
  else if b.toByteArray.validateUTF8 then .ok b
  else .error "Invalid UTF-8"

end Verif.Encoding

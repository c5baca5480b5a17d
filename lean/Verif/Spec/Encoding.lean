import Verif.Model.Encoding
/-!
Specification: the encodings of a text.
-/
namespace Verif.Encoding

/-- UTF-8 -/
def utf8 (s : List Char) : List UInt8 := s.flatMap String.utf8EncodeChar

/-- UTF-16 code units -/
def utf16 (s : List Char) : List Nat :=
  s.flatMap fun c =>
    if c.toNat < 0x10000 then [c.toNat]
    else [0xD800 + (c.toNat - 0x10000) / 0x400, 0xDC00 + (c.toNat - 0x10000) % 0x400]

/-- the bytes of code units, low byte first -/
def bytesLe (u : List Nat) : List UInt8 := u.flatMap fun n => [UInt8.ofNat (n % 256), UInt8.ofNat (n / 256)]

/-- the bytes of code units, high byte first -/
def bytesBe (u : List Nat) : List UInt8 := u.flatMap fun n => [UInt8.ofNat (n / 256), UInt8.ofNat (n % 256)]

/-- the byte order mark -/
def bom : Char := Char.ofNat 0xFEFF

/-- the names of UTF-16 -/
def Named16 (e : String) : Prop := e = "utf-16" ∨ e = "utf16" ∨ e = "UTF-16" ∨ e = "UTF16"

/-- the ways in which a file may hold a text: what its include directive says about the encoding, and its bytes -/
inductive Holds (s : List Char) : Option String → List UInt8 → Prop where
  /-- in UTF-8, unmarked -/
  | utf8 (e) : (∀ n, e = some n → ¬ Named16 n) → s.head? ≠ some bom → Holds s e (utf8 s)
  /-- in UTF-8 after a mark -/
  | utf8Bom (e) : (∀ n, e = some n → ¬ Named16 n) → Holds s e (utf8 (bom :: s))
  /-- in UTF-16, low byte first, after a mark -/
  | leBom (e) : (∀ n, e = some n → ¬ Named16 n) → Holds s e (bytesLe (utf16 (bom :: s)))
  /-- in UTF-16, high byte first, after a mark -/
  | beBom (e) : (∀ n, e = some n → ¬ Named16 n) → Holds s e (bytesBe (utf16 (bom :: s)))
  /-- in UTF-16, low byte first, without mark, as its include directive says -/
  | named (n) : Named16 n → Holds s (some n) (bytesLe (utf16 s))

end Verif.Encoding

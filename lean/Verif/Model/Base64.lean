/-!
Model of `parser/src/base64.rs` (whole file, lines 1-28): the base64 encoder used for `data-uri`
images. Bytes are `UInt8` with Rust's wrapping-free shift semantics (`<<` on `u8` drops high bits,
exactly Lean's `UInt8` shift); the output string is a `List Char`.
-/
namespace Verif.Base64

/-- `parser/src/base64.rs:5` — the alphabet literal. -/
def alphabet : List Char :=
  "ABCDEFGHIJKLMNOPQRSTUVWXYZabcdefghijklmnopqrstuvwxyz0123456789+/".toList

/-- `parser/src/base64.rs:6` — `digit`: `alphabet[index as usize] as char`. `none` models the
out-of-bounds index panic. -/
def digit (i : UInt8) : Option Char := alphabet[i.toNat]?

/-- `parser/src/base64.rs:7-25` — the loop over `bytes.chunks(3)`; `none` models a panic of `digit`.
The capacity hint of line 4 has no observable effect and is not modelled. -/
def encode : List UInt8 → Option (List Char)
  | [] => some []
  | [a] => do
      -- lines 8, 21-24
      let d1 ← digit (a >>> 2)
      let d2 ← digit ((a <<< 4) &&& 63)
      return [d1, d2, '=', '=']
  | [a, b] => do
      -- lines 8, 16-20
      let d1 ← digit (a >>> 2)
      let d2 ← digit (((a <<< 4) ||| (b >>> 4)) &&& 63)
      let d3 ← digit ((b <<< 2) &&& 63)
      return [d1, d2, d3, '=']
  | a :: b :: c :: rest => do
      -- lines 8, 10-15
      let d1 ← digit (a >>> 2)
      let d2 ← digit (((a <<< 4) ||| (b >>> 4)) &&& 63)
      let d3 ← digit (((b <<< 2) ||| (c >>> 6)) &&& 63)
      let d4 ← digit (c &&& 63)
      let tl ← encode rest
      return d1 :: d2 :: d3 :: d4 :: tl

end Verif.Base64

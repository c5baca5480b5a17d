import Verif.Model.OpenTag
/-!
How a program reads JSON (RFC 8259). Numbers and `null` are left out, and so are escapes of characters that are not in the first plane of Unicode:
nothing that is said here has them.
-/
namespace Verif.Spec.Json
open Verif.OpenTag

inductive Json where
  | bool (b : Bool)
  | string (s : Str)
  | array (l : List Json)
  | object (l : List (Str × Json))

def hexDigit (c : Char) : Option Nat :=
  if '0' ≤ c ∧ c ≤ '9' then some (c.toNat - 48)
  else if 'a' ≤ c ∧ c ≤ 'f' then some (c.toNat - 87)
  else if 'A' ≤ c ∧ c ≤ 'F' then some (c.toNat - 55)
  else none

/-- the character that a letter after a backslash stands for -/
def escape : Char → Option Char
  | '"' => some '"'
  | '\\' => some '\\'
  | '/' => some '/'
  | 'b' => some '\x08'
  | 'f' => some '\x0c'
  | 'n' => some '\n'
  | 'r' => some '\r'
  | 't' => some '\t'
  | _ => none

/-- a string, after its first quote: what it is, and what is after it. Characters below the space may not be in it. -/
def readString : Str → Option (Str × Str)
  | [] => none
  | '"' :: r => some ([], r)
  | '\\' :: 'u' :: a :: b :: c :: d :: r => do
    let n := (← hexDigit a) * 4096 + (← hexDigit b) * 256 + (← hexDigit c) * 16 + (← hexDigit d)
    if 0xD800 ≤ n ∧ n ≤ 0xDFFF then none else (readString r).map fun (s, r) => (Char.ofNat n :: s, r)
  | '\\' :: c :: r => (escape c).bind fun e => (readString r).map fun (s, r) => (e :: s, r)
  | c :: r => if c = '\\' ∨ c.toNat < 32 then none else (readString r).map fun (s, r) => (c :: s, r)

/-- space between the parts -/
def skip : Str → Str := List.dropWhile fun c => c = ' ' ∨ c = '\t' ∨ c = '\n' ∨ c = '\r'

mutual
/-- a value, and what is after it; the number is how many steps may be made -/
def readValue : Nat → Str → Option (Json × Str)
  | 0, _ => none
  | n + 1, s =>
    match skip s with
    | '"' :: r => (readString r).map fun (t, r) => (.string t, r)
    | 't' :: 'r' :: 'u' :: 'e' :: r => some (.bool true, r)
    | 'f' :: 'a' :: 'l' :: 's' :: 'e' :: r => some (.bool false, r)
    | '[' :: r =>
      match skip r with
      | ']' :: r => some (.array [], r)
      | _ => (readItems n r).map fun (l, r) => (.array l, r)
    | '{' :: r =>
      match skip r with
      | '}' :: r => some (.object [], r)
      | _ => (readMembers n r).map fun (l, r) => (.object l, r)
    | _ => none

/-- the values of an array, up to its end -/
def readItems : Nat → Str → Option (List Json × Str)
  | 0, _ => none
  | n + 1, s =>
    match readValue n s with
    | none => none
    | some (v, r) =>
      match skip r with
      | ']' :: r => some ([v], r)
      | ',' :: r => (readItems n r).map fun (l, r) => (v :: l, r)
      | _ => none

/-- the members of an object, up to its end -/
def readMembers : Nat → Str → Option (List (Str × Json) × Str)
  | 0, _ => none
  | n + 1, s =>
    match skip s with
    | '"' :: r =>
      match readString r with
      | none => none
      | some (k, r) =>
        match skip r with
        | ':' :: r =>
          match readValue n r with
          | none => none
          | some (v, r) =>
            match skip r with
            | '}' :: r => some ([(k, v)], r)
            | ',' :: r => (readMembers n r).map fun (l, r) => ((k, v) :: l, r)
            | _ => none
        | _ => none
    | _ => none
end

/-- what a JSON text says, if it is one; every step reads something, or is followed by one that does -/
def parse (s : Str) : Option Json :=
  match readValue (2 * s.length + 2) s with
  | some (v, r) => if skip r = [] then some v else none
  | none => none

/-- the characters that may be in a string as they are, and the ends of lines -/
def Simple (s : Str) : Prop := ∀ c ∈ s, c ≠ '\\' ∧ (32 ≤ c.toNat ∨ c = '\n')

instance (s : Str) : Decidable (Simple s) := by unfold Simple; infer_instance

end Verif.Spec.Json

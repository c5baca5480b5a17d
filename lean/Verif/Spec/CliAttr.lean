import Verif.Model.CliAttr
/-!
Specification: how an attribute is given on the command line.
-/
namespace Verif.CliAttr
open Regex

/-- An argument: the name; `!` before or behind the name unsets the attribute; `@` before or behind the name, or at the end of
the value, lets the document change it; a value may follow. -/
structure Arg where
  bangBefore : Bool := false
  atBefore : Bool := false
  name : List Char
  bangAfter : Bool := false
  atAfter : Bool := false
  value : Option (List Char) := none
  /-- `@` behind the value -/
  atEnd : Bool := false

/-- A name consists of word characters and `-`, and starts with a word character. A value is not empty, holds no line break
and does not end with `@`. There is an `@` behind the value only when there is a value, and when there is no other `@`. -/
def Arg.ok (word : Char → Bool) (a : Arg) : Bool :=
  a.name.head?.any word && a.name.all (fun c => word c || c = '-') &&
    a.value.all (fun v => v ≠ [] && v.all (· ≠ '\n') && v.getLast? ≠ some '@') && (!a.atEnd || (a.value.isSome && !a.atBefore && !a.atAfter))

/-- the text -/
def Arg.text (a : Arg) : List Char :=
  (if a.bangBefore then ['!'] else []) ++ (if a.atBefore then ['@'] else []) ++ a.name ++ (if a.bangAfter then ['!'] else []) ++
    (if a.atAfter then ['@'] else []) ++ (match a.value with | none => [] | some v => '=' :: v ++ if a.atEnd then ['@'] else [])

/-- the attribute is unset -/
def Arg.unset (a : Arg) : Bool := a.bangBefore || a.bangAfter

/-- the document may change the attribute -/
def Arg.soft (a : Arg) : Bool := a.atBefore || a.atAfter || a.atEnd

/-- what it means -/
def Arg.meaning (lower : List Char → List Char) (a : Arg) : Res :=
  match a.value with
  | none => .ok (lower a.name) ⟨!a.soft, .bool (!a.unset)⟩
  | some v => if a.unset then .unsetWithValue else .ok (lower a.name) ⟨!a.soft, .string (String.ofList v)⟩

end Verif.CliAttr

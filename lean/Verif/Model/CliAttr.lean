import Verif.Model.Regex
import Verif.Model.Meta
/-!
Model of the argument `--attribute` of the command line: `cli/src/args.rs:67-91`.

`str::to_lowercase` is a parameter.
-/
namespace Verif.CliAttr
open Regex

/-- `args.rs:68` — `ATTR_RE`: `(!)?(@)?(\w(?:[\w-]*))(!)?(@)?(?:=(.+))?` -/
def attrRe (word : Char → Bool) : Re :=
  .seq (.opt (.cap 1 (.ch '!'))) (.seq (.opt (.cap 2 (.ch '@'))) (.seq (.cap 3 (.seq (.set word) (.star true (.set fun c => word c || c = '-'))))
    (.seq (.opt (.cap 4 (.ch '!'))) (.seq (.opt (.cap 5 (.ch '@'))) (.opt (.seq (.ch '=') (.cap 6 (.plus (.set (· ≠ '\n'))))))))))

/-- what `parse_attr` returns -/
inductive Res where
  | ok (key : List Char) (attr : JobAttr)
  /-- `Invalid attribute` -/
  | invalid
  /-- ``Cannot unset attr with `!` AND provide value`` -/
  | unsetWithValue
deriving DecidableEq, Repr

/-- `str::trim_end_matches('@')` -/
def trimAt (l : List Char) : List Char := (l.reverse.dropWhile (· = '@')).reverse

/-- `args.rs:71-91` — `parse_attr`; `none`: a panic (`unwrap` of the name) -/
def parseAttr (word : Char → Bool) (lower : List Char → List Char) (input : List Char) : Option Res :=
  match captures word (attrRe word) input with
  | none => some .invalid
  | some m =>
    match m.group 3 with
    | none => none
    | some name =>
      let key := lower name
      match (m.group 1).isSome || (m.group 4).isSome, (m.group 2).isSome || (m.group 5).isSome, m.group 6 with
      | false, false, none => some (.ok key ⟨true, .bool true⟩)
      | false, true, none => some (.ok key ⟨false, .bool true⟩)
      | true, false, none => some (.ok key ⟨true, .bool false⟩)
      | true, true, none => some (.ok key ⟨false, .bool false⟩)
      | false, true, some value => some (.ok key ⟨false, .string (String.ofList value)⟩)
      | false, false, some value =>
        if value.getLast? = some '@' then some (.ok key ⟨false, .string (String.ofList (trimAt value))⟩)
        else some (.ok key ⟨true, .string (String.ofList value)⟩)
      | true, _, some _ => some .unsetWithValue

end Verif.CliAttr

import Verif.Lemmas.CliAttr
/-!
C77: an attribute that is given on the command line is set as it is written.
-/
namespace Verif.Props
open Verif.Regex Verif.CliAttr

/-- **C77 (part).** For every argument of one of the documented forms (`name`, `name=value`, `name!`, `!name`, each with `@`
before or behind the name or behind the value): the attribute is set to the value, set, or unset; it can be changed by the document
if and only if there is an `@`; unsetting with a value is an error. What is missing: other arguments are not rejected
(`C77_space_violated`, `C77_empty_value_violated`), and values that hold a line break or end with `@` (`C77_ats_violated`,
`C77_line_break_violated`). -/
theorem C77_argument_partial (cl : Classes) (lower : List Char → List Char) {a : Arg} (h : a.ok cl.word = true) : parseAttr cl.word lower a.text = some (a.meaning lower) :=
  arg_read cl lower h

/-- No argument makes the parser of the arguments panic. -/
theorem C77_no_panic (word : Char → Bool) (lower : List Char → List Char) (input : List Char) : parseAttr word lower input ≠ none :=
  arg_total word lower input

/-- C77 fails for `my attr=x`: the attribute `my` is set, `attr` is not, and there is no error. -/
theorem C77_space_violated : parseAttr AuthorLine.ascii.word id "my attr=x".toList = some (.ok "my".toList ⟨true, .bool true⟩) := by
  decide +kernel

/-- C77 fails for an empty value: the attribute is set to true. -/
theorem C77_empty_value_violated : parseAttr AuthorLine.ascii.word id "name=".toList = some (.ok "name".toList ⟨true, .bool true⟩) := by
  decide +kernel

/-- C77 fails for an argument without a name: the value is taken as the name. -/
theorem C77_no_name_violated : parseAttr AuthorLine.ascii.word id "=x".toList = some (.ok "x".toList ⟨true, .bool true⟩) := by
  decide +kernel

/-- C77 fails for a value that ends with `@`, when another `@` behind it allows changes: both are removed. -/
theorem C77_ats_violated : parseAttr AuthorLine.ascii.word id "name=a@@".toList = some (.ok "name".toList ⟨false, .string "a"⟩) := by
  decide +kernel

/-- C77 fails for a value with a line break: what follows it is left out. -/
theorem C77_line_break_violated : parseAttr AuthorLine.ascii.word id "name=a\nb".toList = some (.ok "name".toList ⟨true, .string "a"⟩) := by
  decide +kernel

section Example
example : Arg.ok AuthorLine.ascii.word { name := "my-name".toList, atBefore := true, value := some "a=b@c".toList } = true := by decide +kernel
example : Arg.text { name := "my-name".toList, value := some "a b".toList, atEnd := true } = "my-name=a b@".toList ∧
    Arg.ok AuthorLine.ascii.word { name := "my-name".toList, value := some "a b".toList, atEnd := true } = true := by decide +kernel
example : Arg.text { bangBefore := true, name := "toc".toList, atAfter := true } = "!toc@".toList ∧
    Arg.ok AuthorLine.ascii.word { bangBefore := true, name := "toc".toList, atAfter := true } = true := by decide +kernel
end Example

end Verif.Props

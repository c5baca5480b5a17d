import Verif.Model.Regex
/-!
Model of the author line and the revision line: `parser/src/tasks/parse_author_line.rs`,
`parser/src/tasks/parse_revision_line.rs`. The input is the source of the line.

Not modelled: locations.
-/
namespace Verif.AuthorLine
open Regex

/-- `core/src/types.rs:34-39` -/
structure Author where
  first : List Char
  middle : Option (List Char)
  last : List Char
  email : Option (List Char)
deriving DecidableEq, Repr

/-- `parse_author_line.rs:18` -/
def firstRe : Re := .cap 1 (.seq (.plus (.set fun c => !space c && c ≠ '<' && c ≠ '.')) (.opt (.ch '.')))
/-- `parse_author_line.rs:19` -/
def middleRe : Re := .star true (.cap 2 (.seq (.plus (.set space)) (.cap 3 (.seq (.plus (.set fun c => c ≠ '<' && c ≠ ';')) .wordB))))
/-- `parse_author_line.rs:20` -/
def lastRe : Re := .cap 4 (.seq (.star true (.set space)) (.cap 5 (.plus (.set fun c => !space c && c ≠ '<' && c ≠ ';'))))
/-- `parse_author_line.rs:21` -/
def emailRe : Re :=
  .opt (.seq (.plus (.set space)) (.seq (.ch '<') (.seq (.cap 6 (.seq (.plus (.set fun c => !space c && c ≠ '>' && c ≠ '@')) (.seq (.ch '@')
    (.plus (.set fun c => !space c && c ≠ '>'))))) (.ch '>'))))
/-- `parse_author_line.rs:22` -/
def sepRe : Re := .opt (.cap 7 (.seq (.star true (.set space)) (.seq (.ch ';') (.star true (.set space)))))
/-- `parse_author_line.rs:17-24` -/
def authorRe : Re := .seq firstRe (.seq middleRe (.seq lastRe (.seq emailRe sepRe)))

/-- `parse_author_line.rs:75-77` — `de_underscore` -/
def deUnderscore (l : List Char) : List Char := l.map fun c => if c = '_' then ' ' else c

/-- `parse_author_line.rs:59-73` — `author_from`; `none`: a group that is unwrapped has not matched -/
def authorFrom (m : Match) : Option Author :=
  match m.group 1, m.group 5 with
  | some first, some last =>
    some ⟨deUnderscore first, (m.group 3).map fun x => deUnderscore (trimEnd x), deUnderscore last, m.group 6⟩
  | _, _ => none

/-- `parse_author_line.rs:13-56` — `parse_author_line`: the authors that are added, and whether the line is reported as
invalid. `none`: a panic. -/
def parseAuthorLine (word : Char → Bool) (line : List Char) : Option (List Author × Bool) :=
  let src := trimEnd line
  let ms := capturesIter word authorRe (src.length + 1) [] src
  match ms.mapM authorFrom with
  | none => none
  | some authors =>
    match ms.head?, ms.getLast? with
    | some a, some z => some (authors, decide (a.skipped > 0 ∨ z.stop.rest ≠ []))
    | _, _ => some (authors, true)

/-- `parse_revision_line.rs:14` -/
def revisionRe : Re :=
  .seq .bol (.seq (.cap 1 (.plus (.set fun c => !space c && c ≠ ',' && c ≠ ':')))
    (.seq (.opt (.seq (.ch ',') (.seq (.star true (.set space)) (.cap 2 (.plusLazy (.set (· ≠ ':')))))))
      (.seq (.opt (.seq (.ch ':') (.seq (.star true (.set space)) (.cap 3 (.plus (.set (· ≠ '\n')))))))
        .eol)))

/-- `parse_revision_line.rs:24` -/
def versionRe (digit : Char → Bool) : Re := .seq (.set digit) (.seq (.star true (.set (· ≠ '\n'))) .eol)

/-- `parse_revision_line.rs:35` -/
def onlyRe (digit : Char → Bool) : Re :=
  .seq .bol (.seq (.ch 'v') (.seq (.cap 1 (.seq (.set digit) (.plus (.set fun c => !space c)))) .eol))

/-- what a revision line says -/
structure Revision where
  number : Option (List Char) := none
  date : Option (List Char) := none
  remark : Option (List Char) := none
deriving DecidableEq, Repr

/-- `parse_revision_line.rs:7-84` — `parse_revision_line` for a line that starts with a word or digits. Outer `none`: a panic
(`unwrap` of the version); inner `none`: this is no revision line. -/
def parseRevisionLine (cl : Classes) (src : List Char) : Option (Option Revision) :=
  match captures cl.word revisionRe src with
  | none => some none
  | some m =>
    match m.group 1 with
    | none => none
    | some raw =>
      if raw.any Char.isDigit then
        match captures cl.word (versionRe cl.digit) raw with
        | none => none
        | some v =>
          let version := raw.drop v.skipped
          match m.group 2, m.group 3 with
          | none, none => some (some { number := if (captures cl.word (onlyRe cl.digit) raw).isSome then some version else none })
          | none, some remark => some (some { number := some version, remark := some remark })
          | some date, none => some (some { number := some version, date := some date })
          | some date, some remark => some (some ⟨some version, some date, some remark⟩)
      else some none

end Verif.AuthorLine

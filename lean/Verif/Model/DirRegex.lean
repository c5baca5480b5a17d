import Verif.Model.Regex
/-!
Model of the regular expressions for directives: `core/src/regx.rs:26-40`.

None of them depends on the class of word characters.
-/
namespace Verif.Directives
open Verif.Regex

/-- a literal in a regular expression -/
def litRe (s : String) : Re := s.toList.foldr (fun c r => .seq (.ch c) r) .eps

/-- `.` -/
def dot : Re := .set (· ≠ '\n')

/-- `core/src/regx.rs:30-31` — `DIRECTIVE_IFDEF`: `^ifn?def::([^\[]+[^\[\s])\[(.*)\]$` -/
def ifdefRe : Re :=
  .seq .bol (.seq (litRe "if") (.seq (.opt (.ch 'n')) (.seq (litRe "def::")
    (.seq (.cap 1 (.seq (.plus (.set (· ≠ '['))) (.set fun c => c ≠ '[' && !space c)))
      (.seq (.ch '[') (.seq (.cap 2 (.star true dot)) (.seq (.ch ']') .eol)))))))

/-- `core/src/regx.rs:32` — `DIRECTIVE_ENDIF`: `^endif::(\S*)\[\]$` -/
def endifRe : Re :=
  .seq .bol (.seq (litRe "endif::") (.seq (.cap 1 (.star true (.set fun c => !space c))) (.seq (litRe "[]") .eol)))

/-- `[=!><]=|[><]` -/
def opRe : Re := .alt (.seq (.set fun c => c = '=' || c = '!' || c = '>' || c = '<') (.ch '=')) (.set fun c => c = '>' || c = '<')

/-- `core/src/regx.rs:37-38` — `DIRECTIVE_IFEVAL`: `^ifeval::(.*?)\[(.+?) *([=!><]=|[><]) *(.+)\]$` -/
def ifevalRe : Re :=
  .seq .bol (.seq (litRe "ifeval::") (.seq (.cap 1 (.star false dot)) (.seq (.ch '[') (.seq (.cap 2 (.plusLazy dot))
    (.seq (.star true (.ch ' ')) (.seq (.cap 3 opRe) (.seq (.star true (.ch ' ')) (.seq (.cap 4 (.plus dot)) (.seq (.ch ']') .eol)))))))))

/-- the text of a group -/
def groupOf (m : Match) (n : Nat) : List Char := (m.group n).getD []

/-- `ifdef.rs:9-15` — the attributes and the embedded text of an `ifdef` or `ifndef` directive -/
def matchIfdef (line : List Char) : Option (List Char × List Char) :=
  (captures (fun _ => false) ifdefRe line).map fun m => (groupOf m 1, groupOf m 2)

/-- `line.rs:1029-1033` — the target of an `endif` directive -/
def matchEndif (line : List Char) : Option (List Char) :=
  (captures (fun _ => false) endifRe line).map fun m => groupOf m 1

/-- `ifeval.rs:8-38` — the target, the left side, the operator and the right side of an `ifeval` directive -/
def matchIfeval (line : List Char) : Option (List Char × List Char × List Char × List Char) :=
  (captures (fun _ => false) ifevalRe line).map fun m => (groupOf m 1, groupOf m 2, groupOf m 3, groupOf m 4)

end Verif.Directives

import Verif.Model.Directives
import Verif.Model.Ifeval
import Verif.Model.Lexer
/-!
Model of reading lines with conditional directives from the source text: `parser/src/parser.rs:108-154` with the lexer
(`Model/Lexer.lean`), the regular expressions (`Model/DirRegex.lean`) and the decisions (`Model/Directives.lean`).

Simplifications: lines with a `{` (attribute references), lines that start with `:` (attribute entries), `include` directives and
conditionals on one line with a directive in the brackets are out of the model; so are comment blocks and a carriage return that is
not before a line feed. The source is one file. The attributes do not change while reading. The reports for invalid `ifeval` directives
are left out, others are collected (non-strict mode). When lines are skipped the code reads tokens without looking at the ends of
lines; here they are read line by line, which is the same as no token goes beyond a line (`C83_tokens_stay_in_their_line`).
-/
namespace Verif.Directives
open Verif Verif.Lexer

/-- what a document knows while its lines are read -/
structure Env (F : Type) where
  plugins : List (List UInt8)
  /-- `document.meta.get` (`ifdef.rs:45-50`): is it a string or `true` -/
  isSet : List Char → Bool
  parseFloat : List Char → Option F
  pcmp : F → F → Option Ordering

/-- `parser.rs:117-134` — the tokens until the end of the line, and the position there; `none`: a panic -/
def lexLine (src : List UInt8) (plugins : List (List UInt8)) : Nat → Nat → Option (List Tok × Nat)
  | 0, _ => none
  | fuel + 1, pos =>
    if eol src[pos]? then some ([], pos)
    else
      match nextToken src plugins pos with
      | some (some s, p) => do
        let lexeme ← slice src s.start s.stop
        let (toks, q) ← lexLine src plugins fuel p
        some (⟨s.kind, s.start, s.stop, lexeme⟩ :: toks, q)
      | _ => none

/-- `root_lexer.rs:177-184` — `skip_newline` -/
def skipNewline (src : List UInt8) (pos : Nat) : Nat :=
  let p := if src[pos]? = some 13 then pos + 1 else pos
  if src[p]? = some 10 then p + 1 else p

/-- the tokens of all lines (`parser.rs:110-135` until the end of the source) -/
def lexLines (src : List UInt8) (plugins : List (List UInt8)) : Nat → Nat → Option (List (List Tok))
  | 0, _ => none
  | fuel + 1, pos =>
    if src[pos]? = none then some []
    else do
      let (toks, p) ← lexLine src plugins (src.length + 1) pos
      let rest ← lexLines src plugins fuel (skipNewline src p)
      some (toks :: rest)

/-- `parser/src/line.rs:746-756` — `reassemble_src` (without attribute references) -/
def lineText (toks : List Tok) : List Char :=
  match (toks.flatMap Tok.lexeme).toByteArray.utf8Decode? with
  | some cs => cs.toList
  | none => []

/-- the token is the directive `name::` -/
def isDir (t : Tok) (name : String) : Bool := t.kind == .Directive && t.lexeme == bs name

/-- `line.rs:1020-1034` — `directive_endif_target` -/
def endifTarget : List Tok → Option (List Char)
  | [] => none
  | t :: ts => if !isDir t "endif::" || (t :: ts).length < 3 then none else matchEndif (lineText (t :: ts))

/-- `ifeval.rs:4-47`: `some none` if the directive is not valid, otherwise whether the expression holds; `none`: a panic -/
def condition {F : Type} (env : Env F) (line : List Char) : Option (Option Bool) :=
  match matchIfeval line with
  | none => some none
  | some (target, l, o, r) =>
    if target ≠ [] then some none
    else
      match Ifeval.Op.fromStr o with
      | none => some none
      | some op => do
        let a ← Ifeval.coerce env.parseFloat l
        let b ← Ifeval.coerce env.parseFloat r
        some (some (Ifeval.eval env.pcmp a op b))

/-- `parser.rs:139`, `directives/mod.rs:8-22`, `ifdef.rs:9-15` — the directive a line starts with; `none`: a panic, or out of the
model -/
def firstDir {F : Type} (env : Env F) : List Tok → Option (Option Dir)
  | [] => some none
  | t :: ts =>
    let ifDir (defined : Bool) : Dir :=
      match matchIfdef (lineText (t :: ts)) with
      | none => .badIf
      | some (attrs, embedded) => .ifdef defined attrs embedded
    if t.kind ≠ .Directive then some none
    else if isDir t "ifdef::" then some (some (ifDir true))
    else if isDir t "ifndef::" then some (some (ifDir false))
    else if isDir t "endif::" then
      some (some (match endifTarget (t :: ts) with | none => .badEndif | some target => .endif target))
    else if isDir t "ifeval::" then (condition env (lineText (t :: ts))).map fun c => some (.ifeval c)
    else none

/-- the tokens of one line in `skip_lines_until_endif` (`ifdef.rs:63-87`): the depth after the line, or `none` if the block ended
in it -/
def skipToks : Nat → List Tok → Option Nat
  | depth, [] => some depth
  | depth, t :: ts =>
    if isDir t "endif::" then
      if (endifTarget (t :: ts)).isSome then (if depth - 1 = 0 then none else some (depth - 1)) else some depth
    else if isDir t "ifdef::" || isDir t "ifndef::" then skipToks (depth + 1) ts
    else skipToks depth ts

/-- `ifdef.rs:58-94` — `skip_lines_until_endif`: the lines after the endif line, `none` if it never comes -/
def skipLines : Nat → List (List Tok) → Option (List (List Tok))
  | _, [] => none
  | depth, l :: ls =>
    match skipToks depth l with
    | none => some ls
    | some depth => skipLines depth ls

theorem skipLines_length (d : Nat) (ls r : List (List Tok)) (h : skipLines d ls = some r) : r.length < ls.length := by
  induction ls generalizing d with
  | nil => simp [skipLines] at h
  | cons l ls ih =>
    unfold skipLines at h
    split at h
    · cases h; simp
    · have := ih _ h; simp only [List.length_cons]; omega

/-- a line without attribute references that is no attribute entry -/
def inModel (line : List Char) : Bool := !line.contains '{' && line.head? != some ':'

/-- `ifdef.rs:27-32` — the text in the brackets, read as a source of its own: it is out of the model if it is a directive -/
def embeddedOk {F : Type} (env : Env F) (d : Option Dir) : Bool :=
  match d with
  | some (.ifdef _ _ (c :: e)) =>
    let src := (c :: e).flatMap String.utf8EncodeChar ++ [10]
    inModel (c :: e) &&
      match lexLine src env.plugins (src.length + 1) 0 with
      | some (t :: _, _) => t.kind != .Directive
      | _ => false
  | _ => true

/-- Reading all lines (`parser.rs:108-154`, `_read_line`, called until it returns `None`): the lines delivered, the final
`ifdef_stack` (last element first) and the diagnostics. -/
def readToks {F : Type} (env : Env F) (stack : List (List Char)) :
    List (List Tok) → Option (List (List Char) × List (List Char) × List Err)
  | [] => some ([], stack, [])
  | l :: ls =>
    if !inModel (lineText l) then none
    else
      match firstDir env l with
      | none => none
      | some d =>
        if !embeddedOk env d then none
        else
          match action env.isSet stack ⟨d, [], lineText l⟩ with
          | (.deliver t, stack, es) => (readToks env stack ls).map fun r => (t :: r.1, r.2.1, es ++ r.2.2)
          | (.readNext, stack, es) => (readToks env stack ls).map fun r => (r.1, r.2.1, es ++ r.2.2)
          | (.skip, stack, es) =>
            match h : skipLines 1 ls with
            | none => some ([], stack, es ++ [.neverClosed])
            | some ls' => (readToks env stack ls').map fun r => (r.1, r.2.1, es ++ r.2.2)
termination_by ls => ls.length
decreasing_by all_goals simp_wf; try (have := skipLines_length _ _ _ h; omega)

/-- reading a source text: the lines that are delivered, and the reports -/
def readSource {F : Type} (env : Env F) (src : List UInt8) : Option (List (List Char) × List Err) := do
  let lines ← lexLines src env.plugins (src.length + 1) 0
  let (ts, _, es) ← readToks env [] lines
  some (ts, es)

end Verif.Directives

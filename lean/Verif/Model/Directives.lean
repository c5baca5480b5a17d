import Verif.Model.DirRegex
/-!
Model of conditional directives: `parser/src/tasks/directives/{mod,ifdef,ifeval}.rs` and the part of
`parser/src/parser.rs` that reads lines.

Simplifications: a document is a list of lines, each with the directive tokens the lexer finds in it, already
matched against the regular expressions (`Model/DirText.lean` gets them from the source); the text of a one-line
conditional is plain text; whether an attribute is set is an arbitrary function that does not change while reading;
`include` and the look-ahead defects of C05 are left out; diagnostics are collected (non-strict mode).
-/
namespace Verif.Directives

/-- split at the separators of `ifdef.rs:38` (`str::split([',', '+'])`) -/
def splitAttrs : List Char → List (List Char)
  | [] => [[]]
  | c :: cs =>
    if c = ',' ∨ c = '+' then [] :: splitAttrs cs
    else
      match splitAttrs cs with
      | [] => [[c]]
      | w :: ws => (c :: w) :: ws

/-- `ifdef.rs:36-56` — `evaluate_ifdef`; `isSet` is `meta.get(attr)` being a string or `true` -/
def evaluateIfdef (isSet : List Char → Bool) (defined : Bool) (attrs : List Char) : Bool :=
  let isAny := attrs.contains ','
  let result := (splitAttrs attrs).foldl (fun current attr =>
    if !isAny && !current && defined then false
    else if isAny && current then true
    else isSet attr) (!isAny)
  if !defined then !result else result

/-- a directive token in a line, matched against its regular expression -/
inductive Dir where
  /-- `ifdef::`/`ifndef::` matching its pattern -/
  | ifdef (defined : Bool) (attrs embedded : List Char)
  /-- an `ifdef::`/`ifndef::` token that does not match -/
  | badIf
  | endif (target : List Char)
  | badEndif
  /-- a valid `ifeval` with its truth value, or an invalid one -/
  | ifeval (holds : Option Bool)
deriving DecidableEq, Repr

/-- a line: the directive it starts with, the directive tokens inside it, and its text -/
structure DLine where
  first : Option Dir
  inner : List Dir
  text : List Char
deriving DecidableEq, Repr

inductive Err where
  | neverClosed | noPrevious | mismatched
deriving DecidableEq, Repr

/-- the directive tokens of one line in `skip_lines_until_endif` (`ifdef.rs:63-87`): the depth after the line, or
`none` if the block ended in it -/
def skipTokens : Nat → List Dir → Option Nat
  | depth, [] => some depth
  | depth, .endif _ :: _ => if depth - 1 = 0 then none else some (depth - 1)
  | depth, .badEndif :: _ => some depth
  | depth, .ifdef .. :: ts => skipTokens (depth + 1) ts
  | depth, .badIf :: ts => skipTokens (depth + 1) ts
  | depth, .ifeval _ :: ts => skipTokens depth ts

/-- `ifdef.rs:58-94` — `skip_lines_until_endif`: the lines after the endif line, `none` if it never comes -/
def skipUntilEndif : Nat → List DLine → Option (List DLine)
  | _, [] => none
  | depth, l :: ls =>
    match skipTokens depth (l.first.toList ++ l.inner) with
    | none => some ls
    | some depth => skipUntilEndif depth ls

theorem skipUntilEndif_length (d : Nat) (ls r : List DLine) (h : skipUntilEndif d ls = some r) :
    r.length < ls.length := by
  induction ls generalizing d with
  | nil => simp [skipUntilEndif] at h
  | cons l ls ih =>
    unfold skipUntilEndif at h
    split at h
    · cases h; simp
    · have := ih _ h; simp only [List.length_cons]; omega

/-- the marker of `ifeval.rs:41` -/
def ifevalMark : List Char := "[•ifeval•]".toList

/-- `DirectiveAction` (`parser/src/parser.rs:383-389`), `IgnoreNotIncluded` left out -/
inductive Action where
  | deliver (text : List Char)
  | readNext
  | skip
deriving DecidableEq, Repr

/-- `directives/mod.rs:7-50`, `ifdef.rs:4-34` and `ifeval.rs:4-47`: what to do with a line, the new stack and the
diagnostics -/
def action (isSet : List Char → Bool) (stack : List (List Char)) (l : DLine) :
    Action × List (List Char) × List Err :=
  match l.first with
  | none => (.deliver l.text, stack, [])
  | some .badIf | some .badEndif | some (.ifeval none) => (.deliver l.text, stack, [])
  | some (.ifdef defined attrs embedded) =>
    let stack := attrs :: stack
    match evaluateIfdef isSet defined attrs, embedded with
    | false, [] => (.skip, stack, [])
    | false, _ => (.readNext, stack, [])
    | true, [] => (.readNext, stack, [])
    | true, e => (.deliver e, stack, [])
  | some (.ifeval (some true)) => (.readNext, ifevalMark :: stack, [])
  | some (.ifeval (some false)) => (.skip, stack, [])
  | some (.endif target) =>
    match stack with
    | [] => (.deliver l.text, stack, [.noPrevious])
    | expected :: _ =>
      if target ≠ [] ∧ expected ≠ target then (.deliver l.text, stack, [.mismatched])
      else (.readNext, stack, [])

/-- Reading all lines (`parser.rs:108-154`, `_read_line`, called until it returns `None`): the lines delivered, the
final `ifdef_stack` (last element first) and the diagnostics. -/
def readAll (isSet : List Char → Bool) (stack : List (List Char)) :
    List DLine → List (List Char) × List (List Char) × List Err
  | [] => ([], stack, [])
  | l :: ls =>
    match action isSet stack l with
    | (.deliver t, stack, es) =>
      let (ts, st, es') := readAll isSet stack ls
      (t :: ts, st, es ++ es')
    | (.readNext, stack, es) =>
      let (ts, st, es') := readAll isSet stack ls
      (ts, st, es ++ es')
    | (.skip, stack, es) =>
      match h : skipUntilEndif 1 ls with
      | none => ([], stack, es ++ [.neverClosed])
      | some ls' =>
        let (ts, st, es') := readAll isSet stack ls'
        (ts, st, es ++ es')
termination_by ls => ls.length
decreasing_by all_goals simp_wf; try (have := skipUntilEndif_length _ _ _ h; omega)

end Verif.Directives

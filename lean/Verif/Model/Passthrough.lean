import Verif.Model.Token
import Verif.Model.Subs
import Verif.Model.IncludeText
import Verif.Model.Split
/-! Model of inline passthroughs: `parser/src/tasks/parse_inlines/inline_preproc.rs` and the parts of
`parse_inlines/mod.rs` that use it.

Text between pluses or in a `pass:[]` macro is taken out of the lines of a paragraph, parsed on its own, kept in a list
of the parse context and represented by a token that holds its index there.

Simplifications: tokens have no location and no flag for attribute values (the only place that asks for it, `line.rs:537`,
is not reached with the stop token used here); the content is kept as the lines that are parsed and the substitutions that
apply to them; diagnostics are left out. -/
namespace Verif.Passthrough
open Verif IncludeText

/-- `inline_preproc.rs:66-74`: what is kept of a passthrough: its lines and the substitutions for them -/
structure Pass where
  subs : Substitutions
  lines : List (List Tk)
deriving DecidableEq, Repr

/-- `parse_context.rs:22` — `passthrus`: entries are emptied when they are used -/
abbrev Store := List (Option Pass)

/-! ### finding the end -/

/-- `token.rs:200-202` — `is_whitespaceish` -/
def wsish (t : Tk) : Bool := t.kind = .Whitespace || t.kind = .Newline

/-- `line.rs:429-455` — `index_of_seq` for `k` pluses (`k` is at least one) -/
def indexOfPluses (k : Nat) : List Tk → Option Nat
  | [] => none
  | t :: ts =>
    if k ≤ (t :: ts).length ∧ ((t :: ts).take k).all (·.kind = .Plus) = true then some 0
    else (indexOfPluses k ts).map (· + 1)

/-- `line.rs:521-572` — `terminates_constrained_in` for one plus -/
def constrainedEnd (line : List Tk) : Option Nat :=
  match line.findIdx? (fun t => t.kind = .Plus && t.len = 1) with
  | none => none
  | some 0 => none
  | some (n + 1) =>
    if (line[n + 2]?.any (·.kind = .Word)) || (line[n]?.any wsish) then none else some (n + 1)

/-- `line.rs:294-296` — `is_delimiter`; `delim`: whether a token is the delimiter that is waited for -/
def isDelimiter (delim : Tk → Bool) : List Tk → Bool
  | [t] => delim t
  | _ => false

/-- `inline_preproc.rs:190-203`: the search in the lines after the first -/
def plusesLater (delim : Tk → Bool) (k orig : Nat) : Nat → List (List Tk) → Option Nat
  | _, [] => none
  | n, l :: ls =>
    if isDelimiter delim l then none
    else match indexOfPluses k l with
      | some m => if m = 0 ∧ n = orig then none else some (n + m)
      | none => plusesLater delim k orig (n + l.length) ls

/-- `inline_preproc.rs:215-226`: the same for a single plus -/
def constrainedLater (delim : Tk → Bool) : Nat → List (List Tk) → Option Nat
  | _, [] => none
  | n, l :: ls =>
    if isDelimiter delim l then none
    else match constrainedEnd l with
      | some m => some (n + m)
      | none => constrainedLater delim (n + l.length) ls

/-- `inline_preproc.rs:207-227` — `terminates_constrained_plus` -/
def constrainedPlus (delim : Tk → Bool) (line : List Tk) (lines : List (List Tk)) : Option Nat :=
  if line.head?.any (·.kind = .Newline) then none
  else match constrainedEnd line with
    | some n => some n
    | none => constrainedLater delim line.length lines

/-- `inline_preproc.rs:170-205` — `terminates_plus`; the line starts after the first plus -/
def terminatesPlus (delim : Tk → Bool) (k : Nat) (line : List Tk) (lines : List (List Tk)) : Option Nat :=
  if k = 1 then constrainedPlus delim line lines
  else match indexOfPluses k line with
    | some n => some n
    | none => plusesLater delim k line.length line.length lines

/-- `inline_preproc.rs:139-153`: the bracket that closes a macro, on its first line -/
def closeHere (last : TokenKind) (depth : Nat) : List Tk → Option Nat
  | [] => none
  | t :: ts =>
    if t.kind = .CloseBracket ∧ last ≠ .Backslash then
      if depth = 1 then some 0 else (closeHere t.kind (depth - 1) ts).map (· + 1)
    else if t.kind = .OpenBracket ∧ last ≠ .Backslash then (closeHere t.kind (depth + 1) ts).map (· + 1)
    else (closeHere t.kind depth ts).map (· + 1)

/-- `inline_preproc.rs:156-165`: on the lines after it -/
def closeLater (last : TokenKind) : List Tk → Option Nat
  | [] => none
  | t :: ts => if t.kind = .CloseBracket ∧ last ≠ .Backslash then some 0 else (closeLater t.kind ts).map (· + 1)

/-- `inline_utils.rs:197-210` -/
def targetSub (subs : Substitutions) (name : List Char) : Substitutions :=
  if name = "c".toList ∨ name = "specialchars".toList then subs.insert .specialChars
  else if name = "a".toList ∨ name = "attributes".toList then subs.insert .attrRefs
  else if name = "r".toList ∨ name = "replacements".toList then subs.insert .charReplacement
  else if name = "m".toList ∨ name = "macros".toList then subs.insert .macros
  else if name = "q".toList ∨ name = "quotes".toList then subs.insert .inlineFormatting
  else if name = "v".toList ∨ name = "verbatim".toList then subs.insert .specialChars
  else if name = "n".toList ∨ name = "normal".toList then .normal
  else if name = "p".toList then subs.insert .postReplacement
  else subs

/-- `inline_utils.rs:192-210` — `Substitutions::from_pass_macro_target` -/
def macroSubs (target : List Char) : Substitutions :=
  if target = [] then .none else (Split.splitOn ',' target).foldl targetSub .none

/-- `inline_utils.rs:212-218` — `Substitutions::from_pass_plus_len` -/
def plusSubs (k : Nat) : Substitutions := if k = 3 then .none else .onlySpecialChars

/-- `inline_preproc.rs:130-132` -/
def isTarget (t : Tk) : Bool := t.kind = .Word || t.kind = .Comma

/-- `inline_preproc.rs:118-168, 230-241` — `terminates_valid_pass_macro` and `pass_macro_subs`: the number of tokens of the
content, the substitutions, and the rest of the line after the opening bracket; `none`: the program stops, because there is
no opening bracket (`discard_assert`) -/
def passMacro (line : List Tk) (lines : List (List Tk)) : Option (Option (Nat × Substitutions × List Tk)) :=
  if line = [] then some none
  else
    let target := line.takeWhile isTarget
    let after := line.dropWhile isTarget
    if after.head?.any (·.kind ≠ .OpenBracket) then some none
    else
      let content := after.drop 1
      let last := (content.getLast?.map (·.kind)).getD .OpenBracket
      match closeHere .OpenBracket 1 content with
      | some n => some (some (n, macroSubs (Tk.text target), content))
      | none =>
        match closeLater last lines.flatten with
        | none => some none
        | some m => if after = [] then none else some (some (content.length + m, macroSubs (Tk.text target), content))

/-! ### taking the text out -/

/-- `inline_preproc.rs:91-118` — `accum_passthru`: the lines of the content, the rest of the line it ends on, and the lines
after it; `none`: the program stops because there is no next line -/
def accum (num : Nat) (line : List Tk) (acc : List (List Tk)) : List (List Tk) → Option (List (List Tk) × List Tk × List (List Tk))
  | [] => if num ≤ line.length then some (acc ++ [line.take num], line.drop (num + 1), []) else none
  | l :: ls =>
    if num ≤ line.length then some (acc ++ [line.take num], line.drop (num + 1), l :: ls)
    else accum (num - line.length) l (if line = [] then acc else acc ++ [line]) ls

/-- `format!("^{index:05}")` (`inline_preproc.rs:77`) -/
def placeholder (index : Nat) : List Char :=
  '^' :: (List.replicate (5 - (Nat.toDigits 10 index).length) '0' ++ Nat.toDigits 10 index)

/-- `inline_preproc.rs:51-79` — `pass_placeholder`; `none`: the program stops, also if the last line of the content is empty
(`last_loc().unwrap()`, line 68) -/
def passPlaceholder (k : Nat) (line : List Tk) (lines : List (List Tk)) (num : Nat) (subs : Substitutions) (store : Store) :
    Option (Tk × List Tk × List (List Tk) × Store) :=
  (accum (num - (k - 1)) (line.drop (k - 1)) [] lines).bind fun (content, line, lines) =>
    if content.getLast? = some [] then none
    else some (⟨.PreprocPassthru, placeholder store.length⟩, line.drop (k - 1), lines, store ++ [some ⟨subs, content⟩])

/-- `inline_preproc.rs:244-252` — `could_be_plus_passthru` -/
def couldBePlus (prev : Option TokenKind) (line : List Tk) : Bool :=
  if prev = some .Backtick ∨ (3 ≤ line.length ∧ (line.take 3).all (·.kind = .Plus) = true) then false
  else if !line.head?.any (·.kind = .Plus) then prev = none || prev = some .Whitespace || prev = some .Plus
  else true

/-- `inline_preproc.rs:32`: how many pluses there are, with the one before the line -/
def plusCount (line : List Tk) : Nat := (line.takeWhile (·.kind = .Plus)).length + 1

/-- what is found at a token: nothing, or a passthrough with the number of its pluses, the number of tokens of the content
and the substitutions; with the rest of the line -/
def findPass (delim : Tk → Bool) (prev : Option TokenKind) (t : Tk) (line : List Tk) (lines : List (List Tk)) :
    Option (Option (Nat × Nat × Substitutions × List Tk)) :=
  if t.kind = .MacroName ∧ t.lexeme = "pass:".toList then
    (passMacro line lines).map fun r => r.map fun (n, subs, line) => (0, n, subs, line)
  else if t.kind = .Plus ∧ couldBePlus prev line = true then
    some ((terminatesPlus delim (plusCount line) line lines).map fun n => (plusCount line, n, plusSubs (plusCount line), line))
  else some none

/-- `inline_preproc.rs:12-46` — the loop of `replace_inline_pass`; `prev`: the kind of the last token that was looked at,
`skip`: how many tokens are copied without a look -/
def replaceLoop (delim : Tk → Bool) : Nat → Option TokenKind → Nat → List Tk → List (List Tk) → Store → Option (List Tk × List (List Tk) × Store)
  | 0, _, _, _, _, _ => none
  | _ + 1, _, _, [], lines, store => some ([], lines, store)
  | fuel + 1, prev, skip + 1, t :: line, lines, store =>
    (replaceLoop delim fuel prev skip line lines store).map fun (ts, r) => (t :: ts, r)
  | fuel + 1, prev, 0, t :: line, lines, store =>
    (findPass delim prev t line lines).bind fun found =>
      match found with
      | none => (replaceLoop delim fuel (some t.kind) 0 line lines store).map fun (ts, r) => (t :: ts, r)
      | some (k, n, subs, line) =>
        (passPlaceholder k line lines n subs store).bind fun (p, line, lines, store) =>
          (replaceLoop delim fuel (some t.kind) k line lines store).map fun (ts, r) => (p :: ts, r)

def size (lines : List (List Tk)) : Nat := (lines.map (·.length + 1)).sum

/-- `inline_preproc.rs:7-49` — `replace_inline_pass`: the line that takes the place of the first, the lines after it, and the
passthroughs -/
def replaceLine (delim : Tk → Bool) (line : List Tk) (lines : List (List Tk)) (store : Store) : Option (List Tk × List (List Tk) × Store) :=
  replaceLoop delim (size (line :: lines)) none 0 line lines store

/-- `line.rs:60-72`: the pluses that are counted when a line is made -/
def passPluses : Option TokenKind → List Tk → Nat
  | _, [] => 0
  | prev, t :: ts => (if t.kind = .Plus ∧ prev ≠ some .Backtick ∧ t.len < 4 then 1 else 0) + passPluses (some t.kind) ts

/-- `line.rs:44-58` — `may_contain_inline_pass`, for a line as it was made (the count of pluses stops at 255) -/
def mayContainPass (line : List Tk) : Bool :=
  let isMacro := line.any fun t => t.kind = .MacroName ∧ t.lexeme = "pass:".toList
  let pluses := passPluses none line
  if !isMacro && pluses = 0 then false
  else if isMacro || pluses > 1 then true
  else match line.getLast? with
    | some t => if t.kind = .Plus ∧ t.len = 1 ∧ line.length > 1 then !(line[line.length - 2]?.any wsish) else true
    | none => true

/-! ### putting it back -/

/-- `token.lexeme[1..6].parse()` (`parse_inlines/mod.rs:872`, `inline_utils.rs:14`) -/
def readIndex (lexeme : List Char) : Option Nat := if lexeme.length < 6 then none else parseUsize ((lexeme.drop 1).take 5)

/-- a token, or the content of a passthrough -/
inductive Out | tok (t : Tk) | pass (p : Pass)
deriving DecidableEq, Repr

/-- `mod.rs:871-875`: the tokens of a line, with the content of passthroughs in place of their tokens. `none`: the program
stops. What else `parse_inlines_until` does with tokens is left out. -/
def restoreTokens : List Tk → Store → Option (List Out × Store)
  | [], store => some ([], store)
  | t :: ts, store =>
    if t.kind = .PreprocPassthru then
      (readIndex t.lexeme).bind fun i =>
        (store[i]?.join).bind fun p =>
          (restoreTokens ts (store.set i none)).map fun (out, s) => (.pass p :: out, s)
    else (restoreTokens ts store).map fun (out, s) => (.tok t :: out, s)

/-- `mod.rs:33-73, 871-875` — the loop of `parse_inlines_until` over the lines of a paragraph: a line that may contain
passthroughs is replaced, and taken again. Simplification: the line is replaced before any of its tokens is used. -/
def restoreLines (delim : Tk → Bool) : Nat → List (List Tk) → Store → Option (List (List Out) × Store)
  | 0, _, _ => none
  | _ + 1, [], store => some ([], store)
  | fuel + 1, line :: lines, store =>
    (if mayContainPass line then replaceLine delim line lines store else some (line, lines, store)).bind fun (line, lines, store) =>
      (restoreTokens line store).bind fun (out, store) =>
        (restoreLines delim fuel lines store).map fun (outs, store) => (if out = [] then outs else out :: outs, store)

end Verif.Passthrough

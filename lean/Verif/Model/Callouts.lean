/-! Model of callouts: `parser/src/parse_context.rs:133-179`, `parser/src/token.rs:130-145`, and what
`parser/src/tasks/parse_list.rs` does for callout lists. Numbers are `u8`: an addition that overflows stops the program
(overflow checks are on in debug builds) and is `none` here.

Not modelled: which `<…>` of a verbatim line are callouts (`line.rs:457-466`), the locations of the diagnostics. -/
namespace Verif.Callouts

/-- `ast/src/node.rs:16-25` — `Callout` -/
structure Callout where
  listIdx : Nat
  calloutIdx : Nat
  number : Nat
  xml : Bool
deriving DecidableEq, Repr

/-- `u8` addition of one -/
def succ8 (n : Nat) : Option Nat := if n < 255 then some (n + 1) else none

/-- `token.rs:130-145` — `parse_callout_num`: `none` for `<.>`, and for numbers that are no `u8` -/
def parseCalloutNum (lexeme : List Char) : Option Nat :=
  let digits := lexeme.filter Char.isDigit
  if digits.isEmpty then none
  else
    let n := Nat.ofDigitChars 10 digits 0
    if n ≤ 255 then some n else none

/-- `parse_context.rs:133-159` — `push_callout` -/
def pushCallout (cs : List Callout) (num : Option Nat) (xml : Bool) : Option (Callout × List Callout) :=
  match cs.getLast? with
  | none => let c : Callout := ⟨0, 0, num.getD 1, xml⟩; some (c, [c])
  | some last =>
    if last.number = 0 then
      let c := { last with number := num.getD 1, xml }
      some (c, cs.dropLast ++ [c])
    else
      (succ8 last.calloutIdx).bind fun idx =>
        (match num with | some n => some n | none => succ8 last.number).bind fun n =>
          let c : Callout := ⟨last.listIdx, idx, n, xml⟩
          some (c, cs ++ [c])

/-- `parse_context.rs:161-168` — `advance_callout_list` -/
def advance (cs : List Callout) : Option (List Callout) :=
  match cs.getLast? with
  | none => some cs
  | some last => (succ8 last.listIdx).bind fun i => some [⟨i, 0, 0, false⟩]

/-- `parse_context.rs:170-178` — `get_callouts` -/
def getCallouts (cs : List Callout) (n : Nat) : List Callout := cs.filter fun c => c.number = n

/-- What happens, as far as callouts are concerned, while a document is parsed. -/
inductive Ev where
  | block                      -- a verbatim block begins
  | callout (lexeme : List Char)
  | listStart                  -- a callout list
  | item (marker : List Char)
  | listEnd
deriving DecidableEq, Repr

/-- A callout as it is shown; an item of a callout list, with its number, the callouts it refers to and the problems
that are reported: an unexpected number, no callouts. -/
inductive Out where
  | callout (c : Callout)
  | item (number : Nat) (refs : List Callout) (unexpected missing : Bool)
deriving DecidableEq, Repr

/-- `callouts` of the context, and `auto_conum` of the callout lists being parsed (`parse_list.rs:22`) -/
structure St where
  callouts : List Callout := []
  autos : List Nat := []
deriving DecidableEq, Repr

/-- `parse_inlines/mod.rs:426-433` (callouts), `parse_list.rs:17-44` (the start and end of a list), `parse_list.rs:85-102`
(items) -/
def step (s : St) : Ev → Option (List Out × St)
  | .block => some ([], s)
  | .callout lexeme =>
    (pushCallout s.callouts (parseCalloutNum lexeme) (['<', '!', '-', '-'].isPrefixOf lexeme)).bind fun (c, cs) =>
      some ([.callout c], { s with callouts := cs })
  | .listStart => some ([], { s with autos := 1 :: s.autos })
  | .item marker =>
    match s.autos with
    | [] => none
    | auto :: autos =>
      let n := (parseCalloutNum marker).getD auto
      let refs := getCallouts s.callouts n
      (succ8 n).bind fun next =>
        some ([.item n refs (decide (n ≠ auto)) refs.isEmpty], { s with autos := next :: autos })
  | .listEnd => (advance s.callouts).bind fun cs => some ([], { s with callouts := cs, autos := s.autos.tail })

def run : St → List Ev → Option (List Out × St)
  | s, [] => some ([], s)
  | s, e :: es => (step s e).bind fun (o, s) => (run s es).bind fun (os, s) => some (o ++ os, s)

end Verif.Callouts

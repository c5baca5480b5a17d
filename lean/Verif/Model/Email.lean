import Verif.Model.Inlines
import Verif.Model.Regex
/-!
Model of email addresses in text: `parser/src/line.rs:59-141` with the regular expression of `core/src/regx.rs:10-16`.

Simplification: of `Line::push` only the tokens are kept; the flags for passthroughs and terms are left out. The location of an
address is where it starts.
-/
namespace Verif.Inlines
open Verif TokenKind Regex

/-- `[a-z]` -/
def isLower (c : Char) : Bool := 97 ≤ c.toNat && c.toNat ≤ 122
/-- `[0-9]` -/
def isDecimal (c : Char) : Bool := 48 ≤ c.toNat && c.toNat ≤ 57
/-- `[a-z0-9]` -/
def isLowerNum (c : Char) : Bool := isLower c || isDecimal c

/-- `[a-z0-9_+]([a-z0-9_+.]*[a-z0-9_+])?` -/
def localRe : Re :=
  .cap 1 (.seq (.set fun c => isLowerNum c || c = '_' || c = '+')
    (.opt (.cap 2 (.seq (.star true (.set fun c => isLowerNum c || c = '_' || c = '+' || c = '.'))
      (.set fun c => isLowerNum c || c = '_' || c = '+')))))

/-- `[a-z]{2,6}` -/
def tldRe : Re :=
  .seq (.set isLower) (.seq (.set isLower) (.opt (.seq (.set isLower) (.opt (.seq (.set isLower)
    (.opt (.seq (.set isLower) (.opt (.set isLower)))))))))

/-- `[a-z0-9]+([\-\.]{1}[a-z0-9]+)*\.[a-z]{2,6}` -/
def domainRe : Re :=
  .cap 3 (.seq (.plus (.set isLowerNum))
    (.seq (.star true (.cap 4 (.seq (.set fun c => c = '-' || c = '.') (.plus (.set isLowerNum)))))
      (.seq (.ch '.') tldRe)))

/-- `core/src/regx.rs:10-16` — `EMAIL_RE`:
`^([a-z0-9_+]([a-z0-9_+.]*[a-z0-9_+])?)@([a-z0-9]+([\-\.]{1}[a-z0-9]+)*\.[a-z]{2,6})` -/
def addressRe : Re := .seq .bol (.seq localRe (.seq (.ch '@') domainRe))

/-- `EMAIL_RE.is_match` -/
def isAddress (s : List Char) : Bool := (captures (fun _ => false) addressRe s).isSome

/-- `line.rs:97`, `121` — the kinds of tokens that an address may start with -/
def addressKind (k : TokenKind) : Bool := k = Word || k = Digits || k = Dots || k = Underscore || k = Plus

/-- `line.rs:88-102` — the loop of `finalize_email`: back from token `idx` over the tokens that may be part of the address; the
first token of the line is not looked at -/
def addressStart (l : List Tok) : Nat → Nat
  | 0 => 0
  | idx + 1 =>
    match l[idx + 1]? with
    | none => idx + 1
    | some t =>
      if t.kind = Dots ∧ t.len > 1 then idx + 1
      else if addressKind t.kind then addressStart l idx
      else idx + 1

/-- `line.rs:75-80`, `104-111` — the token as an address of its own -/
def retag (t : Tok) : Tok := { t with kind := if isAddress t.lexeme then Email else Word }

/-- `line.rs:74-141` — `finalize_email`: the tokens of the line after the push -/
def finalizeEmail (l : List Tok) (t : Tok) : List Tok :=
  if l = [] then [retag t]
  else
    let init := l.length - 1
    let idx := addressStart l init
    if idx = init then l ++ [retag t]
    else
      let stop := if ((l[idx]?).map Tok.kind).any addressKind then idx else idx + 1
      let text := (l.drop stop).flatMap Tok.lexeme ++ t.lexeme
      if !isAddress text then l ++ [{ t with kind := Word }]
      else
        match l[stop]? with
        | none => l ++ [t]  -- `unwrap`; does not happen (`stop < l.length`)
        | some s => l.take stop ++ [{ s with lexeme := text, kind := Email }]

/-- `line.rs:59-72` — `push` -/
def pushTok (l : List Tok) (t : Tok) : List Tok := if t.kind = MaybeEmail then finalizeEmail l t else l ++ [t]

/-- the tokens of a line, one after the other -/
def finishLine (l : List Tok) : List Tok := l.foldl pushTok []

end Verif.Inlines

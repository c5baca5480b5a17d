import Verif.Model.AttrRefs
/-!
Specification: what lines with attribute references stand for.
-/
namespace Verif.AttrRefs
open Verif Verif.Inlines TokenKind

/-- the result of reading, given enough steps -/
def Reads (cfg : Cfg) (s : St) (ls : List (List Tok)) : Prop := ∃ n, ∀ m, n ≤ m → readAll cfg m s = .ok ls

/-- the reader at the start of a text -/
def atStart (s : String) : St := ⟨false, [], tokensOf s⟩

/-- the name of the attribute that a reference `{name}` stands for: what is between the braces, in lower case -/
def refName (t : Tok) : String := String.ofList (t.lexeme.tail.dropLast.map Char.toLower)

/-- a reference to an attribute that has a value -/
def refValue (cfg : Cfg) (t : Tok) : Option String :=
  if t.kind = AttrRef then match cfg.attrs (refName t) with | some (.string v) => some v | _ => none else none

/-- a reference to an attribute that has no value -/
def isMissing (cfg : Cfg) (t : Tok) : Bool := t.kind = AttrRef && (refValue cfg t).isNone

/-- the value of `attribute-missing` -/
def onMissing (cfg : Cfg) : Option String := (cfg.attrs "attribute-missing").bind AttrValue.str

/-- the text that a token stands for -/
def meaning (cfg : Cfg) (t : Tok) : List Char :=
  match refValue cfg t with
  | some v => v.toList
  | none => if isMissing cfg t && (onMissing cfg = some "drop" || onMissing cfg = some "drop-line") then [] else t.lexeme

/-- the text of a line; the token of a reference that has been replaced shows nothing -/
def textOf (line : List Tok) : List Char := (line.filter (·.kind ≠ AttrRef)).flatMap (·.lexeme)

/-- the lines that the lines of the source stand for -/
def meaningLines (cfg : Cfg) (ls : List (List Tok)) : List (List Char) :=
  ((ls.filter fun l => !(onMissing cfg = some "drop-line" && l.any (isMissing cfg)))).map (·.flatMap (meaning cfg))

/-- the text of the tokens marked as coming from a value -/
def markedText (line : List Tok) : List Char := (line.filter (·.attr)).flatMap (·.lexeme)

/-- the lines of values of the references in the lines of the source -/
def valueLines (cfg : Cfg) (ls : List (List Tok)) : List (List Char) :=
  (ls.filter fun l => !(onMissing cfg = some "drop-line" && l.any (isMissing cfg))).map
    (·.flatMap fun t => ((refValue cfg t).getD "").toList)

/-- a value without references and line ends -/
structure PlainValue (v : String) : Prop where
  ne : v ≠ ""
  chars : ∀ c ∈ v.toList, c.toNat < 128 ∧ c ≠ '{' ∧ c ≠ '\n' ∧ c ≠ '\r' ∧ c ≠ '\x1b'

/-- a reference that goes away -/
def vanishes (cfg : Cfg) (t : Tok) : Bool :=
  cfg.subs && isMissing cfg t && (onMissing cfg = some "drop" || onMissing cfg = some "drop-line")

/-- the start of a directive or of an attribute entry -/
def special (cfg : Cfg) (t : Tok) : Bool := t.kind = Directive || (t.kind = Colon && cfg.subs)

/-- the line does not start with a directive or an attribute entry -/
def startOk (cfg : Cfg) (l : List Tok) : Bool := !((l.dropWhile (vanishes cfg)).head?.any (special cfg))

/-- the condition on a line of the source -/
structure OkLine (cfg : Cfg) (l : List Tok) : Prop where
  values : cfg.subs = true → ∀ t ∈ l, ∀ v, refValue cfg t = some v → PlainValue v
  start : startOk cfg l = true

/-- references inside values lead to values of a lower rank: no attribute refers to itself through other attributes -/
def Ranked (cfg : Cfg) (rank : String → Nat) : Prop :=
  ∀ name v, cfg.attrs name = some (.string v) → ∀ u ∈ tokensOf v, (refValue cfg u).isSome = true → rank (refName u) < rank name

end Verif.AttrRefs

import Verif.Model.Regex
import Verif.Model.Meta
import Verif.Model.Inlines
/-!
Specification: what a docinfo file says.
-/
namespace Verif.Docinfo
open Verif.Regex (space)
open Verif.Inlines (Sym Leaf)

/-- the lines of a text; a line ends with a line feed, a carriage return or both -/
inductive TextLines : List (List Char) → List Char → Prop where
  | nil : TextLines [] []
  | last {l} : l ≠ [] → '\n' ∉ l → '\r' ∉ l → TextLines [l] l
  | lf {l ls rest} : '\n' ∉ l → '\r' ∉ l → TextLines ls rest → TextLines (l :: ls) (l ++ '\n' :: rest)
  | crlf {l ls rest} : '\n' ∉ l → '\r' ∉ l → TextLines ls rest → TextLines (l :: ls) (l ++ '\r' :: '\n' :: rest)
  | cr {l ls rest} : '\n' ∉ l → '\r' ∉ l → rest.head? ≠ some '\n' → TextLines ls rest → TextLines (l :: ls) (l ++ '\r' :: rest)

/-- what a name between braces may be -/
def RefName (n : List Char) : Prop := n ≠ [] ∧ ∀ c ∈ n, space c = false ∧ c ≠ '}'

/-- a piece of a line -/
inductive Part where
  | char (c : Char)
  | ref (name : List Char)

/-- the references in a line, from left to right -/
inductive Refs : List Char → List Part → Prop where
  | done : Refs [] []
  | ref {n rest ps} : RefName n → Refs rest ps → Refs ('{' :: n ++ '}' :: rest) (.ref n :: ps)
  | char {c rest ps} : (∀ n more, RefName n → c :: rest ≠ '{' :: n ++ '}' :: more) → Refs rest ps → Refs (c :: rest) (.char c :: ps)

/-- what is done with a reference to an attribute that has no text -/
inductive Policy where
  | keep | drop | dropLine
deriving DecidableEq, Repr

/-- `attribute-missing` -/
def policy (v : Option (List Char)) : Policy :=
  if v = some "drop".toList then .drop else if v = some "drop-line".toList then .dropLine else .keep

/-- the attribute has no text -/
def Part.missing (look : List Char → Option AttrValue) : Part → Bool
  | .char _ => false
  | .ref n => match look n with
    | some (.string _) => false
    | _ => true

/-- the text for a piece -/
def Part.text (p : Policy) (look : List Char → Option AttrValue) : Part → List Char
  | .char c => [c]
  | .ref n => match look n with
    | some (.string s) => s.toList
    | _ => if p = .keep then '{' :: n ++ ['}'] else []

/-- the sequences of characters that stand for symbols; the first one that fits counts -/
def sequences : List (List Char × Sym) :=
  [("(TM)".toList, .trademark), ("(C)".toList, .copyright), ("(R)".toList, .registered), ("...".toList, .ellipsis), ("---".toList, .tripleDash),
    ("--".toList, .emDash), ("->".toList, .singleRightArrow), ("=>".toList, .doubleRightArrow), ("<-".toList, .singleLeftArrow),
    ("<=".toList, .doubleLeftArrow)]

/-- a character or a symbol in the page -/
inductive Item where
  | char (c : Char)
  | symbol (k : Sym)
deriving DecidableEq, Repr

/-- a text with the sequences replaced, from left to right -/
inductive Replaced : List Char → List Item → Prop where
  | done : Replaced [] []
  | symbol {w k rest is} : sequences.find? (fun s => s.1.isPrefixOf (w ++ rest)) = some (w, k) → Replaced rest is → Replaced (w ++ rest) (.symbol k :: is)
  | char {c rest is} : sequences.find? (fun s => s.1.isPrefixOf (c :: rest)) = none → Replaced rest is → Replaced (c :: rest) (.char c :: is)

/-- names with commas between them and spaces around them -/
inductive Names : List (List Char) → List Char → Prop where
  | last {a n b} : (∀ c ∈ a ++ b, c = ' ') → (∀ c ∈ n, space c = false ∧ c ≠ ',') → Names [n] (a ++ n ++ b)
  | cons {a n b ns v} : (∀ c ∈ a ++ b, c = ' ') → (∀ c ∈ n, space c = false ∧ c ≠ ',') → Names ns v → Names (n :: ns) (a ++ n ++ b ++ ',' :: v)

/-- what `docinfosubs` asks for: references are replaced, sequences are. Without it, only references are. -/
inductive Asks : Option (List Char) → Bool → Bool → Prop where
  | unset : Asks none true false
  | set {v names} : Names names v → Asks (some v) (names.contains "attributes".toList) (names.contains "replacements".toList)

/-- the settings: whether references are replaced, whether sequences are, and the attributes -/
structure Settings where
  refs : Bool
  seqs : Bool
  policy : Policy
  look : List Char → Option AttrValue

/-- what the page has for a line -/
def LineShown (s : Settings) (line : List Char) (out : List Item) : Prop :=
  ∃ ps, (if s.refs then Refs line ps else ps = line.map .char) ∧
    if s.policy = .dropLine ∧ ps.any (Part.missing s.look) = true then out = []
    else if s.seqs then Replaced (ps.flatMap (Part.text s.policy s.look)) out
    else out = (ps.flatMap (Part.text s.policy s.look)).map .char

/-- what the page has for all lines -/
inductive AllShown (s : Settings) : List (List Char) → List Item → Prop where
  | nil : AllShown s [] []
  | cons {l ls out more} : LineShown s l out → AllShown s ls more → AllShown s (l :: ls) (out ++ more)

/-- the characters and symbols of nodes -/
def items : List Leaf → List Item
  | [] => []
  | .text s :: ls => s.map .char ++ items ls
  | .symbol k :: ls => .symbol k :: items ls
  | _ :: ls => items ls

end Verif.Docinfo

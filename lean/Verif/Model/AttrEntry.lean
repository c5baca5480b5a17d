import Verif.Model.Regex
import Verif.Model.Meta
import Verif.Model.AuthorLine
/-!
Model of attribute entries: `parser/src/tasks/parse_doc_attrs.rs`.

The input is the source from the colon at the start of a line on. The code looks at bytes; here they are characters: the code
compares with ASCII bytes only, and the parts are cut at ASCII bytes.

Not modelled: locations, the observer, `adjust_leveloffset` (`Model/LevelOffset.lean`). How values are put into the attributes
is in `Model/Meta.lean`.
-/
namespace Verif.AttrEntry
open Regex

/-- the string as characters -/
def lit (s : String) : List Char := s.toList

/-- `str::trim` -/
def trim (s : List Char) : List Char := trimEnd (s.dropWhile space)

/-- `parse_doc_attrs.rs:35-37` — a character a name may start with -/
def nameStart (c : Char) : Bool := c.isAlphanum || c = '_'

/-- `parse_doc_attrs.rs:264-266` — `is_attr_word_char` -/
def nameChar (c : Char) : Bool := c.isAlphanum || c = '_' || c = '-'

/-- `parse_doc_attrs.rs:47-67` — the rest of the name, whether a `!` follows it, and what follows the second colon -/
def scanName : List Char → Option (List Char × Bool × List Char)
  | [] => none
  | c :: l =>
    if nameChar c then
      match scanName l with
      | none => none
      | some (n, b, r) => some (c :: n, b, r)
    else if c = '!' then (if l.head? = some ':' then some ([], true, l.drop 1) else none)
    else if c = ':' then some ([], false, l)
    else none

/-- the end of a line: `\n`, `\r\n` or the end of the source -/
def atEol : List Char → Bool
  | [] => true
  | c :: l => c = '\n' || (c = '\r' && l.head? = some '\n')

/-- `parse_doc_attrs.rs:68-78, 111-121` — up to the end of the line -/
def takeLine : List Char → List Char × List Char
  | [] => ([], [])
  | c :: l => if atEol (c :: l) then ([], c :: l) else ((c :: (takeLine l).1), (takeLine l).2)

/-- `parse_doc_attrs.rs:94-129` — the lines that continue the entry; `none`: a panic (the text starts behind the end of the
source). The number is a step budget. -/
def joinLines : Nat → List Char → List Char → Option (List Char × List Char)
  | 0, _, _ => none
  | n + 1, s, r =>
    if lit " \\" <:+ s then
      let s := s.dropLast
      let s := if lit " + " <:+ s then s.dropLast ++ ['\n'] else s
      if r = [] then none
      else
        let r := if r[1]? = some '\r' then r.drop 2 else r.drop 1
        joinLines n (s ++ (takeLine r).1) (takeLine r).2
    else some (s, r)

/-- `core/src/regx.rs:22-23` — `PASS_SIMPLE_ENTITY_MACRO_ATTR`: `^pass:\[(&(#\d+|#x[0-9A-Fa-f]+|[A-Za-z][A-Za-z0-9]+);)\]$` -/
def entityRe (digit : Char → Bool) : Re :=
  let word := fun (s : List Char) => s.foldr (fun c r => Re.seq (.ch c) r) .eps
  .seq .bol (.seq (word (lit "pass:[")) (.seq (.cap 1 (.seq (.ch '&') (.seq
    (.cap 2 (.alt (.seq (.ch '#') (.plus (.set digit)))
      (.alt (.seq (.ch '#') (.seq (.ch 'x') (.plus (.set fun c => c.isDigit || ('A' ≤ c && c ≤ 'F') || ('a' ≤ c && c ≤ 'f')))))
        (.seq (.set Char.isAlpha) (.plus (.set Char.isAlphanum))))))
    (.ch ';')))) (.seq (.ch ']') .eol)))

/-- `core/src/regx.rs:20-21` — `PASS_DBL_MACRO_ATTR`: `^pass:([a-z]+(?:,[a-z-]+)*)?\[footnote:(.*)\]\]$` -/
def footnoteRe : Re :=
  let word := fun (s : List Char) => s.foldr (fun c r => Re.seq (.ch c) r) .eps
  .seq .bol (.seq (word (lit "pass:")) (.seq
    (.opt (.cap 1 (.seq (.plus (.set Char.isLower)) (.star true (.seq (.ch ',') (.plus (.set fun c => c.isLower || c = '-')))))))
    (.seq (word (lit "[footnote:")) (.seq (.cap 2 (.star true (.set (· ≠ '\n')))) (.seq (.ch ']') (.seq (.ch ']') .eol))))))

/-- `parse_doc_attrs.rs:211-248` — `special_case_pass_macro_wrapped_attrs` -/
def special (cl : Classes) (v : List Char) : List Char :=
  if lit "pass:" <+: v then
    match (captures cl.word (entityRe cl.digit) v).bind fun m => m.group 1 with
    | some e => e
    | none => if (captures cl.word footnoteRe v).isSome then Char.ofNat 0x1b :: v.drop 1 else v
  else v

/-- `core/src/regx.rs:7` — `ATTR_VAL_REPLACE`: `\{([^\s}]+)\}` -/
def refRe : Re := .seq (.ch '{') (.seq (.cap 1 (.plus (.set fun c => !space c && c ≠ '}'))) (.ch '}'))

/-- `Regex::replace_all` -/
def replaceAll (word : Char → Bool) (re : Re) (f : Match → List Char) : Nat → List Char → List Char → List Char
  | 0, _, text => text
  | n + 1, before, text =>
    match search word re 0 before text with
    | none => text
    | some m => text.take m.skipped ++ f m ++ replaceAll word re f n m.stop.before m.stop.rest

/-- `parse_doc_attrs.rs:252-258` — the text for a reference -/
def valueOf : Option AttrValue → List Char
  | some (.string s) => s.toList
  | _ => []

/-- `parse_doc_attrs.rs:250-260` — `replace_attr_vals`; `look`: the attributes -/
def replaceVals (word : Char → Bool) (look : List Char → Option AttrValue) (v : List Char) : List Char :=
  replaceAll word refRe (fun m => valueOf ((m.group 1).bind look)) (v.length + 1) [] v

/-- what an entry says -/
structure Entry where
  name : List Char
  value : AttrValue
  /-- there is a `{` in it -/
  brace : Bool
  /-- ``Cannot unset attr with `!` AND provide value`` is reported -/
  report : Bool
  /-- the source from the end of the entry on -/
  rest : List Char
deriving DecidableEq, Repr

inductive Res where
  /-- this is no attribute entry -/
  | no
  | panic
  | ok (e : Entry)
deriving DecidableEq, Repr

/-- `parse_doc_attrs.rs:6-202` — `try_parse_attr_def` -/
def attrDef (cl : Classes) (inHeader : Bool) (look : List Char → Option AttrValue) (l : List Char) : Res :=
  if l[3]? = none then .no
  else
    let leading := l[1]? = some '!'
    let t := if leading then l.drop 2 else l.drop 1
    match t with
    | [] => .panic
    | c :: u =>
      if nameStart c then
        match scanName u with
        | none => .no
        | some (n, trailing, after) =>
          let start := l.length - after.length
          match joinLines (after.length + 1) (l.take start ++ (takeLine after).1) (takeLine after).2 with
          | none => .panic
          | some (s, rest) =>
            let brace := (s.drop start).contains '{'
            let v := trim (s.drop start)
            let negated := leading || trailing
            .ok ⟨(c :: n).map Char.toLower,
              if v = [] then .bool (!negated)
              else .string (String.ofList (special cl (if brace && inHeader then replaceVals cl.word look v else v))),
              brace, negated && decide (v ≠ []), rest⟩
      else .no

/-- `str::split_whitespace`; `w`: the word that has begun -/
def words (w : List Char) : List Char → List (List Char)
  | [] => if w = [] then [] else [w]
  | c :: l => if space c then (if w = [] then words [] l else w :: words [] l) else words (w ++ [c]) l

/-- `[str]::join(" ")` -/
def joinSpace : List (List Char) → List Char
  | [] => []
  | [w] => w
  | w :: v :: l => w ++ ' ' :: joinSpace (v :: l)

/-- `parse_doc_attrs.rs:268-285` — `author_from_attr` -/
def authorFromAttr (v : AttrValue) : Option AuthorLine.Author :=
  match v.str with
  | none => none
  | some s =>
    if s = "" then none
    else
      let parts := words [] s.toList
      some ⟨AuthorLine.deUnderscore (parts.head?.getD []),
        if parts.length > 2 then some (AuthorLine.deUnderscore (joinSpace ((parts.drop 1).take (parts.length - 2)))) else none,
        AuthorLine.deUnderscore ((parts[parts.length - 1]?).getD []), none⟩

/-- an author with its names as strings -/
def author (a : AuthorLine.Author) : Author := ⟨String.ofList a.first, a.middle.map String.ofList, String.ofList a.last, a.email.map String.ofList⟩

/-- `parse_doc_attrs.rs:173-194` — what an entry in the header does to the document: `author` adds an author when there is none,
`email` gives the only author an address; `none`: a panic. That the value is rejected is reported, the report is left out. -/
def headerEntry (m : DocumentMeta) (name : String) (value : AttrValue) : Option DocumentMeta :=
  let new := if name = "author" ∧ m.authors = [] then authorFromAttr value else none
  let m := if new = none ∧ name = "email" ∧ m.authors.length = 1
    then { m with authors := m.authors.map fun a => { a with email := value.str } } else m
  let m := (m.insertHeaderAttr name value).1
  match new with
  | none => some m
  | some a => m.addAuthor (author a)

end Verif.AttrEntry

import Verif.Model.IncludeProcess
import Verif.Model.AttrEntry
import Verif.Model.Inlines
/-!
Model: what a docinfo file puts into the page. Models `parser/src/docinfo.rs:42-120,160-293`. Which files are read is in
`Model/IncludeProcess.lean`; here they have been read and decoded.

The nodes are texts and symbols; `eval/src/eval.rs:57-64` passes them to the backend, which writes texts as they are.
Locations are not modelled.
-/
namespace Verif.Docinfo
open Verif.Regex Verif.Inlines Verif.Split
open Verif.IncludeProcess (docinfoNewlines linesOf trim)

/-- what the substitutions depend on -/
structure Cfg where
  /-- `docinfosubs`, if it is a text -/
  subs : Option (List Char)
  /-- `attribute-missing`, if it is a text -/
  missing : Option (List Char)
  look : List Char → Option AttrValue

/-- `docinfo.rs:160-173` — `docinfo_subs`: references are replaced, sequences of characters are -/
def docinfoSubs : Option (List Char) → Bool × Bool
  | none => (true, false)
  | some v =>
    let ps := (splitOn ',' v).map trim
    (ps.contains "attributes".toList, ps.contains "replacements".toList)

/-- `docinfo.rs:191-207` — `append_docinfo_text` -/
def appendText (nodes : List Leaf) (text : List Char) : List Leaf :=
  if text = [] then nodes
  else match nodes.getLast? with
    | some (.text s) => nodes.dropLast ++ [.text (s ++ text)]
    | _ => nodes ++ [.text text]

/-- `docinfo.rs:218-240` — the symbol for the characters here, and how many they are. The code looks at bytes; the sequences
are ASCII, so no other character has a byte of them. -/
def symbolAt (t : List Char) : Option (Sym × Nat) :=
  if "(TM)".toList.isPrefixOf t then some (.trademark, 4)
  else if "(C)".toList.isPrefixOf t then some (.copyright, 3)
  else if "(R)".toList.isPrefixOf t then some (.registered, 3)
  else if "...".toList.isPrefixOf t then some (.ellipsis, 3)
  else if "---".toList.isPrefixOf t then some (.tripleDash, 3)
  else if "--".toList.isPrefixOf t then some (.emDash, 2)
  else if "->".toList.isPrefixOf t then some (.singleRightArrow, 2)
  else if "=>".toList.isPrefixOf t then some (.doubleRightArrow, 2)
  else if "<-".toList.isPrefixOf t then some (.singleLeftArrow, 2)
  else if "<=".toList.isPrefixOf t then some (.doubleLeftArrow, 2)
  else none

/-- `docinfo.rs:209-257` — the loop of `append_docinfo_symbols`; `seg`: the text from `start` to `i`. The number is a step budget. -/
def symbols : Nat → List Leaf → List Char → List Char → List Leaf
  | 0, nodes, seg, _ => appendText nodes seg
  | _ + 1, nodes, seg, [] => appendText nodes seg
  | n + 1, nodes, seg, c :: cs =>
    match symbolAt (c :: cs) with
    | some (k, len) => symbols n (appendText nodes seg ++ [.symbol k]) [] ((c :: cs).drop len)
    | none => symbols n nodes (seg ++ [c]) cs

/-- `Regex::replace_all`, with a flag that the replacements set; `f` gets the text of the match -/
def replaceAllFlag (word : Char → Bool) (re : Re) (f : List Char → Match → Bool × List Char) : Nat → List Char → List Char → Bool × List Char
  | 0, _, text => (false, text)
  | n + 1, before, text =>
    match search word re 0 before text with
    | none => (false, text)
    | some m =>
      let r := f ((text.drop m.skipped).take (text.length - m.skipped - m.stop.rest.length)) m
      let more := replaceAllFlag word re f n m.stop.before m.stop.rest
      (r.1 || more.1, text.take m.skipped ++ r.2 ++ more.2)

/-- `docinfo.rs:265-290` — the text for a reference, and whether the line is dropped -/
def refText (cfg : Cfg) (source : List Char) (m : Match) : Bool × List Char :=
  match (m.group 1).bind cfg.look with
  | some (.string s) => (false, s.toList)
  | _ =>
    if cfg.missing = some "drop".toList then (false, [])
    else if cfg.missing = some "drop-line".toList then (true, [])
    else (false, source)

/-- `docinfo.rs:260-293` — `resolve_docinfo_attr_refs` -/
def resolveRefs (word : Char → Bool) (cfg : Cfg) (attrRefs : Bool) (line : List Char) : Option (List Char) :=
  if !attrRefs then some line
  else
    let r := replaceAllFlag word AttrEntry.refRe (refText cfg) (line.length + 1) [] line
    if r.1 then none else some r.2

/-- `docinfo.rs:103-120` — `parse_docinfo_line` -/
def lineNodes (word : Char → Bool) (cfg : Cfg) (line : List Char) : List Leaf :=
  match resolveRefs word cfg (docinfoSubs cfg.subs).1 line with
  | none => []
  | some text => if (docinfoSubs cfg.subs).2 then symbols (text.length + 1) [] [] text else appendText [] text

/-- `docinfo.rs:83-101` — `parse_docinfo_fragment` of the file -/
def fragment (word : Char → Bool) (cfg : Cfg) (content : List Char) : List Leaf :=
  (linesOf (docinfoNewlines content)).flatMap (lineNodes word cfg)

/-- `docinfo.rs:42-75` — `resolve_docinfo_location` with the files that are asked for and found: the one of all documents and the
one of this document -/
def location (word : Char → Bool) (cfg : Cfg) (shared own : Option (List Char)) : Option (List Leaf) :=
  match shared, own with
  | none, none => none
  | some s, none => some (fragment word cfg s)
  | none, some p => some (fragment word cfg p)
  | some s, some p => some (appendText (fragment word cfg s) ['\n'] ++ fragment word cfg p)

end Verif.Docinfo

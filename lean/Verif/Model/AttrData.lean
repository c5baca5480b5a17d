import Verif.Model.OpenTag
/-!
Model of the questions that can be put to attribute lists (`ast/src/attr_list.rs:14-172`), to several of them (`ast/src/multi_attr_list.rs`,
`ast/src/priority_attr_list.rs`), and of the tags of listings (`dr-html-backend/src/asciidoctor_html.rs:351-371`,
`backend-html5s/src/html5s.rs:309-345`).
-/
namespace Verif.AttrData
open Verif.OpenTag

/-- the value of an attribute: a single text, or other inline nodes (here, a number stands for them) -/
inductive Arg
  | text (s : Str) | nodes (n : Nat)
  deriving DecidableEq, Repr

/-- `single_text` -/
def Arg.single : Arg → Option Str | .text s => some s | .nodes _ => none

/-- `attr_list.rs:4-12` — `AttrList` -/
structure AList where
  positional : List (Option Arg) := []
  named : List (Str × Arg) := []
  id : Option Str := none
  roles : List Str := []
  options : List Str := []
  deriving DecidableEq, Repr

/-- `attr_list.rs:34-36` — `roles` -/
def AList.shownRoles (a : AList) : List Str := a.roles.filter (· ≠ [])

/-- `attr_list.rs:42-48` — `is_empty` -/
def AList.isEmpty (a : AList) : Bool :=
  a.positional.isEmpty && a.named.isEmpty && a.id.isNone && a.roles.isEmpty && a.options.isEmpty

/-- `attr_list.rs:57-59` — `positional_at` -/
def AList.positionalAt (a : AList) (i : Nat) : Option Arg := a.positional[i]?.join

/-- `attr_list.rs:50-55` — `str_positional_at` -/
def AList.strAt (a : AList) (i : Nat) : Option Str := (a.positionalAt i).bind Arg.single

/-- `attr_list.rs:61-63` — `has_option` -/
def AList.hasOption (a : AList) (o : Str) : Bool := a.options.any (· == o)

/-- `attr_list.rs:65-71` — `has_str_positional` -/
def AList.hasStr (a : AList) (s : Str) : Bool := (List.range a.positional.length).any fun i => a.strAt i == some s

/-- `attr_list.rs:85-99` — `source_language` -/
def AList.language (a : AList) : Option Str :=
  match a.strAt 0, a.strAt 1 with
  | none, some lang => some lang
  | none, none => none
  | some p, second =>
    if p = "source".toList ∧ second.isSome then second
    else if p = "listing".toList then none
    else if a.id.isNone && a.roles.isEmpty && a.options.isEmpty then none
    else some p

/-- `attr_list.rs:73-83` — `is_source` -/
def AList.isSource (a : AList) : Bool :=
  if a.strAt 0 == some "source".toList || a.language.isSome then true
  else if a.id.isNone && a.roles.isEmpty && a.options.isEmpty then false
  else match a.strAt 0 with
    | none => false
    | some p => p != "listing".toList

/-- `attr_list.rs:101-103` — `has_role` -/
def AList.hasRole (a : AList) (r : Str) : Bool := a.roles.any (· == r)

/-- `attr_list.rs:125-127`, `Named::get` — `named_nodes` -/
def AList.namedNodes (a : AList) (k : Str) : Option Arg := a.named.findSome? fun (n, v) => if n = k then some v else none

/-- `attr_list.rs:105-110` — `named` -/
def AList.namedStr (a : AList) (k : Str) : Option Str := (a.namedNodes k).bind Arg.single

/-! ### several lists -/

/-- `multi_attr_list.rs:22-24` -/
def multiEmpty (ls : List AList) : Bool := ls.isEmpty || ls.all AList.isEmpty
/-- `multi_attr_list.rs:26-28` -/
def multiRoles (ls : List AList) : List Str := ls.flatMap AList.shownRoles
/-- `multi_attr_list.rs:30-32` -/
def multiId (ls : List AList) : Option Str := ls.findSome? AList.id
/-- `multi_attr_list.rs:34-36` -/
def multiStrAt (ls : List AList) (i : Nat) : Option Str := ls.findSome? (·.strAt i)
/-- `multi_attr_list.rs:38-40` -/
def multiPositionalAt (ls : List AList) (i : Nat) : Option Arg := ls.findSome? (·.positionalAt i)
/-- `multi_attr_list.rs:42-44` -/
def multiHasOption (ls : List AList) (o : Str) : Bool := ls.any (·.hasOption o)
/-- `multi_attr_list.rs:46-48` -/
def multiHasStr (ls : List AList) (s : Str) : Bool := ls.any (·.hasStr s)
/-- `multi_attr_list.rs:50-52` -/
def multiIsSource (ls : List AList) : Bool := ls.any AList.isSource
/-- `multi_attr_list.rs:54-56` -/
def multiLanguage (ls : List AList) : Option Str := ls.findSome? AList.language
/-- `multi_attr_list.rs:58-60` -/
def multiHasRole (ls : List AList) (r : Str) : Bool := ls.any (·.hasRole r)
/-- `multi_attr_list.rs:62-64` -/
def multiNamedStr (ls : List AList) (k : Str) : Option Str := ls.findSome? (·.namedStr k)
/-- `multi_attr_list.rs:70-72` -/
def multiNamedNodes (ls : List AList) (k : Str) : Option Arg := ls.findSome? (·.namedNodes k)

/-- the answers to all questions -/
structure Answers where
  empty : Bool
  roles : List Str
  id : Option Str
  strAt : Nat → Option Str
  positionalAt : Nat → Option Arg
  hasOption : Str → Bool
  hasStr : Str → Bool
  isSource : Bool
  language : Option Str
  hasRole : Str → Bool
  namedStr : Str → Option Str
  namedNodes : Str → Option Arg

/-- those of one list -/
def AList.answers (a : AList) : Answers :=
  ⟨a.isEmpty, a.shownRoles, a.id, a.strAt, a.positionalAt, a.hasOption, a.hasStr, a.isSource, a.language, a.hasRole, a.namedStr, a.namedNodes⟩

/-- those of several lists -/
def multi (ls : List AList) : Answers :=
  ⟨multiEmpty ls, multiRoles ls, multiId ls, multiStrAt ls, multiPositionalAt ls, multiHasOption ls, multiHasStr ls, multiIsSource ls,
    multiLanguage ls, multiHasRole ls, multiNamedStr ls, multiNamedNodes ls⟩

/-- `priority_attr_list.rs:17-103` — a list that goes before several others -/
def priority (a : AList) (ls : List AList) : Answers where
  empty := a.isEmpty && multiEmpty ls
  roles := a.shownRoles ++ multiRoles ls
  id := a.id.or (multiId ls)
  strAt i := (a.strAt i).or (multiStrAt ls i)
  positionalAt i := (a.positionalAt i).or (multiPositionalAt ls i)
  hasOption o := a.hasOption o || multiHasOption ls o
  hasStr s := a.hasStr s || multiHasStr ls s
  isSource := a.isSource || multiIsSource ls
  language := a.language.or (multiLanguage ls)
  hasRole r := a.hasRole r || multiHasRole ls r
  namedStr k := (a.namedStr k).or (multiNamedStr ls k)
  namedNodes k := (a.namedNodes k).or (multiNamedNodes ls k)

/-- `multi_attr_list.rs:110-176` — `NoAttrs` -/
def noAttrs : Answers where
  empty := true
  roles := []
  id := none
  strAt _ := none
  positionalAt _ := none
  hasOption _ := false
  hasStr _ := false
  isSource := false
  language := none
  hasRole _ := false
  namedStr _ := none
  namedNodes _ := none

/-! ### listings -/

/-- the attributes of a language, as both backends write them -/
def languageAttrs (lang : Str) : Str := " class=\"language-".toList ++ lang ++ "\" data-lang=\"".toList ++ lang ++ ['"']

/-- `asciidoctor_html.rs:354-369` — the tags of `enter_listing_block` around the text; `doc` is the attribute `source-language` -/
def listing (ls : List AList) (doc : Option Str) : Str :=
  "<pre".toList ++
  (if multiIsSource ls || doc.isSome then
    " class=\"highlight\"><code".toList ++
    (match multiLanguage ls with
      | some lang => languageAttrs lang
      | none => match doc with | some lang => languageAttrs lang | none => [])
  else []) ++ ['>']

/-- `html5s.rs:314-343` — the same, in the semantic page; `highlighter` is the attribute `source-highlighter` -/
def listing5 (ls : List AList) (doc highlighter : Option Str) : Str :=
  "<pre".toList ++
  (if multiIsSource ls || doc.isSome then
    " class=\"highlight".toList ++ (if multiHasOption ls "nowrap".toList then " nowrap".toList else []) ++
    (if multiHasOption ls "numbered".toList || multiHasOption ls "linenums".toList || multiStrAt ls 2 == some "linenums".toList then
      " linenums".toList else []) ++
    (match highlighter with | some h => ' ' :: h | none => []) ++ "\"><code".toList ++
    (match (multiLanguage ls).or doc with | some lang => languageAttrs lang | none => [])
  else []) ++ ['>']

end Verif.AttrData

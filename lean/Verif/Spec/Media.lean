import Verif.Spec.StartTag
import Verif.Model.Media
/-! Specification: how an address is read, and what the address of a video should say. -/
namespace Verif.Media
open Verif.OpenTag

/-- what is before the first `c`, and what is after it -/
def cut (c : Char) : Str → Str × Option Str
  | [] => ([], none)
  | x :: s => if x = c then ([], some s) else ((x :: (cut c s).1), (cut c s).2)

/-- the parts between the `c` -/
def parts (c : Char) : Str → List Str
  | [] => [[]]
  | x :: s =>
    if x = c then [] :: parts c s
    else match parts c s with
      | [] => [[x]]
      | p :: ps => (x :: p) :: ps

/-- an address: what is before `?`, the parameters, and what is after `#` -/
structure Address where
  path : Str
  params : List (Str × Str)
  fragment : Option Str
deriving DecidableEq, Repr

/-- how a browser reads an address -/
def readAddress (s : Str) : Address :=
  let (s, fragment) := cut '#' s
  let (path, query) := cut '?' s
  { path, fragment,
    params := match query with
      | none => []
      | some q => (parts '&' q).map fun p => ((cut '=' p).1, (cut '=' p).2.getD []) }

/-- where the providers have their videos -/
def embeds (p : Provider) : Str :=
  if p = .youTube then "https://www.youtube.com/embed/".toList
  else if p = .vimeo then "https://player.vimeo.com/video/".toList
  else "https://fast.wistia.com/embed/iframe/".toList

/-- which video is shown: the one before `/`, or the first before `,`, or the target -/
inductive Shows : Provider → Str → Str → Prop where
  | slash {p id rest} : p ≠ .wistia → '/' ∉ id → Shows p (id ++ '/' :: rest) id
  | first {id rest} : '/' ∉ id ++ rest → ',' ∉ id → Shows .youTube (id ++ ',' :: rest) id
  | alone {p target} : (p = .wistia ∨ '/' ∉ target) → (p = .youTube → ',' ∉ target) → Shows p target target

/-- the parameters of an address, with their values -/
inductive Wanted (target : Str) (a : Attrs) : Provider → String → Str → Prop where
  /-- `id/list` -/
  | list {id list} : target = id ++ '/' :: list → '/' ∉ id → Wanted target a .youTube "list" list
  | listNamed {list} : a.named "list" = some list → Wanted target a .youTube "list" list
  /-- `id,id,id` -/
  | ids : '/' ∉ target → ',' ∈ target → Wanted target a .youTube "playlist" target
  | playlist {l} : '/' ∉ target → ',' ∉ target → a.named "playlist" = some l → Wanted target a .youTube "playlist" (target ++ ',' :: l)
  /-- a video that is played again and again is a playlist of its own -/
  | again : '/' ∉ target → ',' ∉ target → "loop" ∈ a.options → a.named "list" = none → Wanted target a .youTube "playlist" target
  /-- `id/hash` -/
  | hash {id hash} : target = id ++ '/' :: hash → '/' ∉ id → Wanted target a .vimeo "h" hash
  | hashNamed {h} : '/' ∉ target → a.named "hash" = some h → Wanted target a .vimeo "h" h
  | hashWistia {h} : a.named "hash" = some h → Wanted target a .wistia "h" h
  | hashYouTube {h} : '/' ∉ target → ',' ∉ target → a.named "playlist" = none → a.named "hash" = some h → Wanted target a .youTube "h" h
  | autoplay {p} : p ≠ .wistia → "autoplay" ∈ a.options → Wanted target a p "autoplay" ['1']
  | autoPlay : "autoplay" ∈ a.options → Wanted target a .wistia "autoPlay" "true".toList
  | mute : "muted" ∈ a.options → Wanted target a .youTube "mute" ['1']
  | mutedVimeo : "muted" ∈ a.options → Wanted target a .vimeo "muted" ['1']
  | muted : "muted" ∈ a.options → Wanted target a .wistia "muted" "true".toList
  | modest : "modest" ∈ a.options → Wanted target a .youTube "modestbranding" ['1']
  | loop {p} : p ≠ .wistia → "loop" ∈ a.options → Wanted target a p "loop" ['1']
  | loopWistia : "loop" ∈ a.options → Wanted target a .wistia "endVideoBehavior" "loop".toList
  | reset : "reset" ∈ a.options → Wanted target a .wistia "endVideoBehavior" "reset".toList
  | related : "related" ∈ a.options → Wanted target a .youTube "rel" ['1']
  | unrelated : "related" ∉ a.options → Wanted target a .youTube "rel" ['0']
  | theme {v} : a.named "theme" = some v → Wanted target a .youTube "theme" v
  | lang {v} : a.named "lang" = some v → Wanted target a .youTube "hl" v
  | end_ {v} : a.named "end" = some v → Wanted target a .youTube "end" v
  | small : "nofullscreen" ∈ a.options → Wanted target a .youTube "fs" ['0']
  | nocontrols : "nocontrols" ∈ a.options → Wanted target a .youTube "controls" ['0']
  | start {v} : a.named "start" = some v → Wanted target a .youTube "start" v
  | time {v} : a.named "start" = some v → Wanted target a .wistia "time" v

/-- no parameter is asked for in two ways -/
def Once (target : Str) (a : Attrs) : Provider → Prop
  | .youTube => ¬ ('/' ∈ target ∧ a.named "list" ≠ none) ∧
      ¬ ('/' ∉ target ∧ ',' ∉ target ∧ a.named "playlist" ≠ none ∧ "loop" ∈ a.options ∧ a.named "list" = none)
  | .vimeo => True
  | .wistia => ¬ ("loop" ∈ a.options ∧ "reset" ∈ a.options)

/-- text that may be a part of an address -/
def Clean (s : Str) : Prop := ∀ c ∈ s, c ∉ ['"', '&', '#', '?']

/-- the attributes that go into an address -/
def addressNames : List String := ["list", "playlist", "hash", "theme", "lang", "end", "start"]

/-- does the text start with the name of a scheme and a colon? -/
def NamesScheme (s : Str) : Prop :=
  ∃ c scheme rest, s = c :: scheme ++ ':' :: rest ∧ scheme ≠ [] ∧ c.isAlpha = true ∧ ∀ x ∈ scheme, x.isAlphanum = true ∨ x ∈ ['.', '+', '-']

/-- the file that is played -/
def File (imagesdir : Option Str) (target path : Str) : Prop :=
  (NamesScheme target ∧ path = target) ∨
    (¬ NamesScheme target ∧ path = (match imagesdir with | some dir => dir ++ '/' :: target | none => target))

/-- the word that names a provider in the attribute list of a video -/
def Provider.word : Provider → Str
  | .youTube => "youtube".toList
  | .vimeo => "vimeo".toList
  | .wistia => "wistia".toList

/-- the part of a file that is played, as the fragment of its address says it (W3C Media Fragments: `t=start`, `t=,end`,
`t=start,end`) -/
def Plays (fragment start stop : Option Str) : Prop :=
  match fragment with
  | none => start = none ∧ stop = none
  | some f => (start ≠ none ∨ stop ≠ none) ∧ ∃ t, f = "t=".toList ++ t ∧ cut ',' t = (start.getD [], stop)

/-- the picture of a video that is not played -/
def Poster (imagesdir : Option Str) : Option Str → Option Str → Prop
  | none, v => v = none
  | some p, v =>
    ((imagesdir = none ∨ NamesScheme p) ∧ v = some (StartTag.seen p)) ∨
      (¬ NamesScheme p ∧ ∃ dir, imagesdir = some dir ∧ v = some (dir ++ '/' :: p))

/-- an attribute without a value -/
def bare (n : String) (b : Prop) [Decidable b] : List (String × Str) := if b then [(n, [])] else []

end Verif.Media

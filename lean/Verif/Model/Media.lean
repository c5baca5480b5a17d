import Verif.Model.OpenTag
import Verif.Model.Regex
/-!
Model of how videos and audio are written: `backend/src/html/video.rs` and `audio_element` of `backend/src/html/backend.rs`.

Simplifications: text is a list of characters; of an attribute list only what the functions ask for is there (`Model/OpenTag.lean`).
-/
namespace Verif.Media
open Verif.OpenTag

/-- `video.rs:191-196` — `Provider` -/
inductive Provider where
  | youTube
  | vimeo
  | wistia
deriving DecidableEq, Repr

/-- `video.rs:199-205` — `url_start` -/
def Provider.start : Provider → Str
  | .youTube => "https://www.youtube.com/embed/".toList
  | .vimeo => "https://player.vimeo.com/video/".toList
  | .wistia => "https://fast.wistia.com/embed/iframe/".toList

/-- `video.rs:207-213` — `slash_param` -/
def Provider.slash : Provider → Option Str
  | .youTube => some "list".toList
  | .vimeo => some "h".toList
  | .wistia => none

/-- `video.rs:215-235` — `simple_param_pairs` -/
def Provider.pairs : Provider → List (String × Str)
  | .youTube => [("autoplay", "autoplay=1".toList), ("muted", "mute=1".toList), ("modest", "modestbranding=1".toList), ("loop", "loop=1".toList)]
  | .vimeo => [("autoplay", "autoplay=1".toList), ("muted", "muted=1".toList), ("loop", "loop=1".toList)]
  | .wistia => [("autoplay", "autoPlay=true".toList), ("muted", "muted=true".toList), ("loop", "endVideoBehavior=loop".toList),
      ("reset", "endVideoBehavior=reset".toList)]

/-- the address so far, and `param_pushed` -/
structure Url where
  buf : Str
  pushed : Bool := false

/-- `iff!(param_pushed, "&amp;", "?")`, and the parameter -/
def Url.param (u : Url) (p : Str) : Url := ⟨u.buf ++ (if u.pushed then "&amp;".toList else "?".toList) ++ p, true⟩

/-- a parameter from an attribute -/
def Url.named (u : Url) (a : Attrs) (n : String) (key : Str) : Url :=
  match a.named n with
  | some v => u.param (key ++ v)
  | none => u

/-- a parameter from an option -/
def Url.option (u : Url) (a : Attrs) (n : String) (p : Str) : Url := if n ∈ a.options then u.param p else u

/-- `target.split_once(c)` -/
def splitOnce (c : Char) (s : Str) : Option (Str × Str) :=
  match s.dropWhile (· ≠ c) with
  | [] => none
  | _ :: r => some (s.takeWhile (· ≠ c), r)

/-- `target.split(",")` -/
def splitAll (c : Char) : Str → List Str
  | [] => [[]]
  | x :: s =>
    if x = c then [] :: splitAll c s
    else match splitAll c s with
      | [] => [[x]]
      | p :: ps => (x :: p) :: ps

/-- `video.rs:35-43` — the loop over the ids of a playlist -/
def playlist (u : Url) : List Str → Url
  | [] => u
  | id :: ids => ids.foldl (fun u id => { u with buf := u.buf ++ ',' :: id }) ⟨u.buf ++ id ++ "?playlist=".toList ++ id, true⟩

/-- `video.rs:26-54` — the target -/
def targetUrl (p : Provider) (target : Str) (a : Attrs) (u : Url) : Url :=
  match p.slash, splitOnce '/' target with
  | some param, some (id, hash) => ⟨u.buf ++ id ++ ['?'] ++ param ++ ['='] ++ hash, true⟩
  | _, _ =>
    if p = .youTube && target.contains ',' then playlist u (splitAll ',' target)
    else match (if p = .youTube then a.named "playlist" else none) with
      | some list => ⟨u.buf ++ target ++ "?playlist=".toList ++ target ++ [','] ++ list, true⟩
      | none => (⟨u.buf ++ target, u.pushed⟩ : Url).named a "hash" "h=".toList

/-- `video.rs:138-176` — `more_youtube_params` -/
def youTubeUrl (target : Str) (a : Attrs) (u : Url) : Url :=
  let u := u.param ("rel=".toList ++ (if "related" ∈ a.options then ['1'] else ['0']))
  let u := u.named a "theme" "theme=".toList
  let u := u.named a "lang" "hl=".toList
  let u := u.named a "end" "end=".toList
  let u := u.option a "nofullscreen" "fs=0".toList
  let u := u.option a "nocontrols" "controls=0".toList
  match a.named "list" with
  | some list => u.param ("list=".toList ++ list)
  | none =>
    if "loop" ∈ a.options && !(target.contains '/' || target.contains ',') then u.param ("playlist=".toList ++ target) else u

/-- `video.rs:66-73` — where to start -/
def startUrl (p : Provider) (a : Attrs) (u : Url) : Url :=
  match a.named "start" with
  | none => u
  | some s =>
    match p with
    | .youTube => u.param ("start=".toList ++ s)
    | .wistia => u.param ("time=".toList ++ s)
    | .vimeo => { u with buf := u.buf ++ "#at=".toList ++ s }

/-- `video.rs:23-73` — the address of a video at a provider -/
def serviceUrl (p : Provider) (target : Str) (a : Attrs) : Str :=
  let u := targetUrl p target a ⟨p.start, false⟩
  let u := p.pairs.foldl (fun u x => u.option a x.1 x.2) u
  let u := if p = .youTube then youTubeUrl target a u else u
  (startUrl p a u).buf

/-- `video.rs:178-189` — `push_dims` -/
def dims (a : Attrs) : Str := namedOrPos "width" 1 a ++ namedOrPos "height" 2 a

/-- `video.rs:16-86` — `service`: the start tag and the end tag -/
def service (p : Provider) (target : Str) (a : Attrs) : Str × Str :=
  ("<iframe".toList ++ dims a ++ " src=\"".toList ++ serviceUrl p target a ++ "\" frameborder=\"0\"".toList ++
      (if "nofullscreen" ∈ a.options then [] else " allowfullscreen".toList) ++
      (if p = .wistia then " class=\"wistia_embed\" name=\"wistia_embed\"".toList else []) ++ ['>'], "</iframe>".toList)

/-- `core/src/regx.rs:67` — `URI_SNIFF`: `^[a-zA-Z][a-zA-Z0-9.+-]+:/{0,2}` -/
def uriSniff : Regex.Re :=
  .seq .bol (.seq (.set fun c => ('a' ≤ c && c ≤ 'z') || ('A' ≤ c && c ≤ 'Z'))
    (.seq (.plus (.set fun c => ('a' ≤ c && c ≤ 'z') || ('A' ≤ c && c ≤ 'Z') || ('0' ≤ c && c ≤ '9') || c = '.' || c = '+' || c = '-'))
      (.seq (.ch ':') (.seq (.opt (.ch '/')) (.opt (.ch '/'))))))

/-- does the target name its scheme? -/
def isUri (s : Str) : Bool := (Regex.captures (fun _ => false) uriSniff s).isSome

/-- `video.rs:94-102` — the path of a file: in `imagesdir`, when that is set and the target is no address -/
def mediaPath (imagesdir : Option Str) (target : Str) : Str :=
  match imagesdir with
  | some dir => if isUri target then target else dir ++ '/' :: target
  | none => target

/-- `video.rs:103-110` — the part to be played -/
def mediaTime (a : Attrs) : Str :=
  match a.named "start", a.named "end" with
  | none, some e => "#t=,".toList ++ e
  | some s, none => "#t=".toList ++ s
  | some s, some e => "#t=".toList ++ s ++ [','] ++ e
  | none, none => []

/-- an option as an attribute without value -/
def flag (a : Attrs) (o : String) (s : Str) : Str := if o ∈ a.options then s else []

/-- `video.rs:111-119` — the picture that is shown before the video is played -/
def posterText (imagesdir poster : Option Str) : Str :=
  match poster with
  | none => []
  | some p =>
    match imagesdir with
    | some dir => if isUri p then Escape.attr "poster".toList p else " poster=\"".toList ++ dir ++ '/' :: p ++ ['"']
    | none => Escape.attr "poster".toList p

/-- `video.rs:88-136` — `native_element`: the start tag -/
def nativeVideo (imagesdir : Option Str) (target : Str) (a : Attrs) (poster : Option Str) : Str :=
  "<video src=\"".toList ++ mediaPath imagesdir target ++ mediaTime a ++ ['"'] ++ dims a ++
    posterText imagesdir poster ++
    flag a "autoplay" " autoplay".toList ++ flag a "muted" " muted".toList ++ flag a "loop" " loop".toList ++
    (match a.named "preload" with
      | some p => Escape.attr "preload".toList p
      | none => []) ++
    (if "nocontrols" ∈ a.options then [] else " controls".toList) ++ ['>']

/-- `video.rs:6-14` — `element`: the start tag -/
def video (imagesdir : Option Str) (target : Str) (a : Attrs) : Str :=
  match a.pos 0 with
  | some p =>
    if p = "youtube".toList then (service .youTube target a).1
    else if p = "vimeo".toList then (service .vimeo target a).1
    else if p = "wistia".toList then (service .wistia target a).1
    else nativeVideo imagesdir target a (a.named "poster" <|> some p)
  | none => nativeVideo imagesdir target a (a.named "poster")

/-- `backend.rs:197-224` — `audio_element`: the start tag -/
def audio (imagesdir : Option Str) (target : Str) (a : Attrs) : Str :=
  "<audio src=\"".toList ++ mediaPath imagesdir target ++ mediaTime a ++ ['"'] ++
    flag a "autoplay" " autoplay".toList ++ flag a "loop" " loop".toList ++
    (if "nocontrols" ∈ a.options then [] else " controls".toList) ++ ['>']

end Verif.Media

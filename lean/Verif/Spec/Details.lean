import Verif.Spec.StartTag
import Verif.Model.Images
/-!
How a browser reads a part of a page: tags and text between them. And what the details of a document should be.
-/
namespace Verif.Spec.Details
open Verif.OpenTag Verif.StartTag Verif.Spec.Escape Verif.Images

inductive Piece where
  | start (name : String) (attrs : List (String × Str))
  | stop (name : String)
  | text (t : Str)

/-- the next piece is text -/
def textFirst : List Piece → Prop
  | .text _ :: _ => True
  | _ => False

/-- what a browser reads -/
inductive Shows : Str → List Piece → Prop where
  | nil : Shows [] []
  | start {s r name attrs ps} : Says s name attrs → Shows r ps → Shows (s ++ r) (.start name attrs :: ps)
  | stop {r ps} (name : String) : Shows r ps → Shows ('<' :: '/' :: name.toList ++ '>' :: r) (.stop name :: ps)
  | text {s r ps} : s ≠ [] → '<' ∉ s → ¬ textFirst ps → Shows r ps → Shows (s ++ r) (.text (unescape s) :: ps)

/-- text, if there is any -/
def said (t : Str) : List Piece := if t = [] then [] else [.text t]

/-- the ids of some pieces -/
def ids (ps : List Piece) : List Str := ps.flatMap fun
  | .start _ attrs => attrs.filterMap fun a => if a.1 = "id" then some a.2 else none
  | _ => []

/-- the number in the ids of an author: the first one has none -/
def nth (i : Nat) : Str := if i = 0 then [] else Nat.toDigits 10 (i + 1)

/-- an element with text in it -/
def element (name : String) (attrs : List (String × Str)) (t : Str) : List Piece := .start name attrs :: (said t ++ [.stop name])

/-- one author: the name, and a link for mails -/
def author (i : Nat) (a : Author) : List Piece :=
  element "span" [("id", "author".toList ++ nth i), ("class", "author".toList)] a.fullname.toList ++ [.start "br" []] ++
  match a.email with
  | some e => .start "span" [("id", "email".toList ++ nth i), ("class", "email".toList)] ::
      (element "a" [("href", "mailto:".toList ++ e.toList)] e.toList ++ [.stop "span", .start "br" []])
  | none => []

/-- the same, in the semantic page: only the first address is followed by a new line -/
def author5 (i : Nat) (a : Author) : List Piece :=
  element "span" [("class", "author".toList), ("id", "author".toList ++ nth i)] a.fullname.toList ++ [.start "br" []] ++
  match a.email with
  | some e => .start "span" [("class", "email".toList), ("id", "email".toList ++ nth i)] ::
      (element "a" [("href", "mailto:".toList ++ e.toList)] e.toList ++ .stop "span" :: (if i = 0 then [.start "br" []] else []))
  | none => []

/-- the authors, counted -/
def authors (f : Nat → Author → List Piece) : Nat → List Author → List Piece
  | _, [] => []
  | i, a :: as => f i a ++ authors f (i + 1) as

/-- the number of the revision, with the word for it before it and a comma after it if a date follows -/
def revision (label : Str) (m : DocumentMeta) (between : List Piece) : List Piece :=
  match str m "revnumber", m.get "revdate" with
  | some n, none => element "span" [("id", "revnumber".toList)] (label ++ ' ' :: n)
  | some n, some _ => element "span" [("id", "revnumber".toList)] (label ++ ' ' :: n ++ [',']) ++ between
  | none, _ => []

def remark (m : DocumentMeta) : List Piece :=
  match str m "revremark" with
  | some r => .start "br" [] :: element "span" [("id", "revremark".toList)] r
  | none => []

/-- the details of a document; `label` is the word for versions -/
def wanted (label : Str) (m : DocumentMeta) : List Piece :=
  [.start "div" [("class", "details".toList)]] ++ authors author 0 m.authors ++ revision label m [] ++
  (match str m "revdate" with
    | some d => element "span" [("id", "revdate".toList)] d
    | none => []) ++ remark m ++ [.stop "div"]

/-- the same, in the semantic page; `iso` is the date as programs read it, if the date is understood -/
def wanted5 (label : Str) (iso : Str → Option Str) (m : DocumentMeta) : List Piece :=
  [.start "div" [("class", "details".toList)]] ++ authors author5 0 m.authors ++ revision label m [.text [' ']] ++
  (match str m "revdate" with
    | some d => element "time" [("id", "revdate".toList), ("datetime", (iso d).getD d)] d
    | none => []) ++ remark m ++ [.stop "div"]

/-- text without characters that mean something in HTML -/
def Clean (s : Str) : Prop := '<' ∉ s ∧ '&' ∉ s ∧ '"' ∉ s

/-- all that is shown is clean -/
structure CleanDetails (label : Str) (m : DocumentMeta) : Prop where
  names : ∀ a ∈ m.authors, Clean a.fullname.toList
  emails : ∀ a ∈ m.authors, ∀ e, a.email = some e → Clean e.toList
  label : Clean label
  revision : ∀ k ∈ ["revnumber", "revdate", "revremark"], ∀ v, str m k = some v → Clean v

/-- whether there is anything to tell -/
def Any (m : DocumentMeta) : Prop :=
  m.authors ≠ [] ∨ (∃ v, m.get "revnumber" = some v) ∨ (∃ v, m.get "revdate" = some v) ∨ ∃ v, m.get "revremark" = some v

/-- the start of the footer: not wider than asked for -/
def footerStart (m : DocumentMeta) : Piece :=
  .start "div" (("id", "footer".toList) :: (opt "style" ((str m "max-width").map fun w => "max-width: ".toList ++ w ++ [';'])))

/-- the footer: the number of the revision, if there is one -/
def wantedFooter (m : DocumentMeta) : List Piece :=
  footerStart m :: (match str m "revnumber" with
    | some n => [.start "div" [("id", "footer-text".toList)], .text ((str m "version-label").getD [] ++ ' ' :: n), .start "br" [], .stop "div"]
    | none => []) ++ [.stop "div"]

end Verif.Spec.Details

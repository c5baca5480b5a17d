import Verif.Model.OpenTag
/-!
Model of what links without a text show: `backend/src/html/backend.rs:388-437`, `core/src/file.rs` (`remove_uri_scheme`).
-/
namespace Verif.Links
open Verif.OpenTag Verif.Escape

/-- `str::splitn(2, "://")`, if there are two parts -/
def splitScheme : Str → Option (Str × Str)
  | [] => none
  | ':' :: '/' :: '/' :: r => some ([], r)
  | c :: r => (splitScheme r).map fun (a, b) => (c :: a, b)

/-- `core/src/file.rs:39-52` — `remove_uri_scheme` -/
def removeScheme (s : Str) : Str :=
  match splitScheme s with
  | none => s
  | some (first, rest) =>
    if rest = [] then s
    else if first ∈ ["http".toList, "https".toList, "ftp".toList, "mailto".toList, "irc".toList, "file".toList] then rest
    else s

/-- `backend.rs:388-407` — `exit_link_macro` outside of references and of the table of contents; `hide` is the attribute `hide-uri-scheme` -/
def exitLink (target : Str) (hasText hide : Bool) : Str :=
  if hasText then "</a>".toList
  else (if hide then escape false (removeScheme target) else escape false target) ++ "</a>".toList

/-- a link: the tag, the text (as it is rendered) if it has one, and the end -/
def link (target : Str) (attrs : Option Attrs) (mailto blank hide : Bool) (text : Option Str) : Str :=
  enterLink target attrs mailto text.isSome blank ++ text.getD [] ++ exitLink target text.isSome hide

/-- `backend.rs:409-437` — `enter_mailto_macro` and the end, without a text -/
def mailLink (address : Str) (subject body : Option Str) (attrs : Option Attrs) : Str :=
  enterMailto address subject body attrs ++ address ++ "</a>".toList

end Verif.Links

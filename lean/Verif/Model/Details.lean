import Verif.Model.Images
/-!
Model of the details in the header and the footer of a page: `dr-html-backend/src/asciidoctor_html.rs:81-126`, `1664-1671`, `1679-1727`,
`backend-html5s/src/html5s.rs:1543-1595`.

`lower` is `str::to_lowercase`. `iso` is `backend::time::format_date_str(_, "%Y-%m-%d")` (`backend/src/time.rs:2-5`): the library `dateparser` is not
in the repository.
-/
namespace Verif.Details
open Verif.OpenTag Verif.Images

/-- `asciidoctor_html.rs:1709-1711`: the number after an id -/
def idNumber (i : Nat) : Str := if 0 < i then Nat.toDigits 10 (i + 1) else []

/-- `asciidoctor_html.rs:1707-1727` — `render_author_detail` -/
def authorDetail (i : Nat) (a : Author) : Str :=
  "<span id=\"author".toList ++ idNumber i ++ "\" class=\"author\">".toList ++ a.fullname.toList ++ "</span>".toList ++ "<br>".toList ++
    match a.email with
    | some e => "<span id=\"email".toList ++ idNumber i ++ "\" class=\"email\">".toList ++ ("<a href=\"mailto:".toList ++ e.toList ++ "\">".toList) ++
        e.toList ++ "</a>".toList ++ "</span>".toList ++ "<br>".toList
    | none => []

/-- `html5s.rs:1543-1560` — `render_author_detail` -/
def authorDetail5 (i : Nat) (a : Author) : Str :=
  "<span class=\"author\" id=\"author".toList ++ idNumber i ++ "\">".toList ++ a.fullname.toList ++ "</span>".toList ++ "<br>".toList ++
    match a.email with
    | some e => "<span class=\"email\" id=\"email".toList ++ idNumber i ++ "\">".toList ++ ("<a href=\"mailto:".toList ++ e.toList ++ "\">".toList) ++
        e.toList ++ "</a>".toList ++ "</span>".toList ++ (if i = 0 then "<br>".toList else [])
    | none => []

/-- all authors, with their indices -/
def authorDetails (f : Nat → Author → Str) : Nat → List Author → Str
  | _, [] => []
  | i, a :: as => f i a ++ authorDetails f (i + 1) as

/-- `asciidoctor_html.rs:1689-1697`, `html5s.rs:1572-1580`: the number of the revision; `after` is what is written after it if there is a date -/
def revNumber (lower : Str → Str) (m : DocumentMeta) (after : Str) : Str :=
  match str m "revnumber" with
  | some n => "<span id=\"revnumber\">".toList ++ (lower ((str m "version-label").getD []) ++ ' ' :: n ++
      if (m.get "revdate").isSome then [','] else []) ++ "</span>".toList ++ (if (m.get "revdate").isSome then after else [])
  | none => []

/-- `asciidoctor_html.rs:1698-1700` -/
def revDate (m : DocumentMeta) : Str :=
  match str m "revdate" with
  | some d => "<span id=\"revdate\">".toList ++ d ++ "</span>".toList
  | none => []

/-- `html5s.rs:1581-1589` -/
def revDate5 (iso : Str → Option Str) (m : DocumentMeta) : Str :=
  match str m "revdate" with
  | some d => "<time id=\"revdate\" datetime=\"".toList ++ (iso d).getD d ++ "\">".toList ++ d ++ "</time>".toList
  | none => []

/-- `asciidoctor_html.rs:1701-1703`, `html5s.rs:1590-1592` -/
def revRemark (m : DocumentMeta) : Str :=
  match str m "revremark" with
  | some r => "<br>".toList ++ "<span id=\"revremark\">".toList ++ r ++ "</span>".toList
  | none => []

/-- `asciidoctor_html.rs:1679-1705` — `render_header_details` -/
def details (lower : Str → Str) (m : DocumentMeta) : Str :=
  "<div class=\"details\">".toList ++ authorDetails authorDetail 0 m.authors ++ revNumber lower m [] ++ revDate m ++ revRemark m ++ "</div>".toList

/-- `html5s.rs:1563-1595` — `render_header_details` -/
def details5 (lower : Str → Str) (iso : Str → Option Str) (m : DocumentMeta) : Str :=
  "<div class=\"details\">".toList ++ authorDetails authorDetail5 0 m.authors ++ revNumber lower m [' '] ++ revDate5 iso m ++ revRemark m ++
    "</div>".toList

/-- `asciidoctor_html.rs:89-100` — `exit_header` -/
def exitHeader (lower : Str → Str) (m : DocumentMeta) : Str :=
  if m.embedded = false ∧ m.isTrue "noheader" = false then
    (if m.authors ≠ [] ∨ (m.get "revnumber").isSome ∨ (m.get "revdate").isSome ∨ (m.get "revremark").isSome then details lower m else []) ++
      "</div>".toList
  else []

/-- `asciidoctor_html.rs:1664-1671` — `render_division_start` -/
def divisionStart (m : DocumentMeta) (id : Str) : Str :=
  "<div id=\"".toList ++ id ++ ['"'] ++ match str m "max-width" with
    | some w => " style=\"max-width: ".toList ++ w ++ ";\">".toList
    | none => ['>']

/-- `asciidoctor_html.rs:114-133` — `enter_footer` (without the footnotes) and `exit_footer` -/
def footer (m : DocumentMeta) : Str :=
  if m.embedded = false ∧ m.isTrue "nofooter" = false then
    divisionStart m "footer".toList ++ (match str m "revnumber" with
      | some n => "<div id=\"footer-text\">".toList ++ ((str m "version-label").getD [] ++ ' ' :: n) ++ "<br>".toList ++ "</div>".toList
      | none => []) ++ "</div>".toList
  else []

end Verif.Details

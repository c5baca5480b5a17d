import Verif.Model.Escape
/-!
Model of how start tags are written: `backend/src/html/open_tag.rs`, `backend/src/html/htmlbuf.rs` and the tags of links,
mail links and images in `backend/src/html/backend.rs`.

Simplifications: text is a list of characters; of an attribute list only what the functions ask for is there.
-/
namespace Verif.OpenTag
open Verif.Escape

/-- text -/
abbrev Str := List Char

/-- what is asked of an attribute list: `attr_list.rs:34-40`, `61-63`, `104-109` and `str_positional_at` -/
structure Attrs where
  id : Option Str := none
  /-- without the empty ones -/
  roles : List Str := []
  named : String → Option Str := fun _ => none
  pos : Nat → Option Str := fun _ => none
  options : List String := []

/-- `open_tag.rs:9-14` -/
structure Tag where
  buf : Str
  opened : Bool := false
  append : Option Str := none
  styles : Option Str := none

/-- roles with spaces between them (`open_tag.rs:49-55`) -/
def joined : List Str → Str
  | [] => []
  | [r] => r
  | r :: rs => r ++ ' ' :: joined rs

/-- `open_tag.rs:34-58` — `new_with_id` -/
def Tag.new (withId : Bool) (elem : Str) (a : Attrs) : Tag where
  buf := '<' :: elem ++ (if withId then match a.id with | some i => attr "id".toList i | none => [] else [])
  append := match a.roles with | [] => none | rs => some (joined rs)

/-- `open_tag.rs:60-66` — `push_str`, `push_ch` -/
def Tag.str (t : Tag) (s : Str) : Tag := { t with buf := t.buf ++ s }

/-- `htmlbuf.rs:38-42` — `push_html_attr` -/
def Tag.attr (t : Tag) (name : String) (v : Str) : Tag := t.str (Escape.attr name.toList v)

/-- `open_tag.rs:88-99` — `push_prefixed_class` without prefix -/
def Tag.cls (t : Tag) (c : Str) : Tag :=
  if t.opened then { t with buf := t.buf ++ ' ' :: c } else { t with buf := t.buf ++ " class=\"".toList ++ c, opened := true }

/-- `open_tag.rs:127-134` — `push_style` -/
def Tag.style (t : Tag) (s : Str) : Tag :=
  { t with styles := some (match t.styles with | none => s | some p => p ++ "; ".toList ++ s) }

/-- `open_tag.rs:157-171` — `finish_classes` -/
def Tag.finishClasses (t : Tag) : Tag :=
  let t := match t.append with
    | some a => { t.cls a with append := none }
    | none => t
  if t.opened then { t with buf := t.buf ++ ['"'], opened := false } else t

/-- `open_tag.rs:173-180` — `finish` -/
def Tag.finish (t : Tag) : Str :=
  let t := t.finishClasses
  let t := match t.styles with | some s => t.attr "style" s | none => t
  t.buf ++ ['>']

/-- `htmlbuf.rs:87-101` — `append_link_constraint_attrs` -/
def linkConstraints (a : Attrs) : Str :=
  match a.named "window" with
  | some w =>
    " target=\"".toList ++ w ++
      (if w = "_blank".toList ∨ "noopener" ∈ a.options then "\" rel=\"noopener".toList else []) ++
      (if "nofollow" ∈ a.options then " nofollow\"".toList else "\"".toList)
  | none => if "nofollow" ∈ a.options then " rel=\"nofollow\"".toList else []

/-- `open_tag.rs:136-155` — `push_link_attrs` -/
def Tag.linkAttrs (t : Tag) (a : Attrs) (hasText blank : Bool) : Tag :=
  let t := if hasText then t else t.cls "bare".toList
  let t := t.finishClasses
  let t := match a.named "title" with | some v => t.attr "title" v | none => t
  if blank then t.str " target=\"_blank\" rel=\"noopener\"".toList else t.str (linkConstraints a)

/-- `backend.rs:346-386` — `enter_link_macro` outside of references and of the table of contents -/
def enterLink (target : Str) (attrs : Option Attrs) (mailto hasText blank : Bool) : Str :=
  let t := Tag.new true "a".toList (attrs.getD {})
  let t := t.str " href=\"".toList
  let t := if mailto then t.str "mailto:".toList else t
  let t := (t.str (escape false target)).str ['"']
  let t := match attrs with | some a => t.linkAttrs a hasText blank | none => t
  let t := if attrs.isNone ∧ hasText = false ∧ mailto = false then t.cls "bare".toList else t
  t.finish

/-- `backend.rs:408-437` — `enter_mailto_macro`, the tag -/
def enterMailto (address : Str) (subject body : Option Str) (attrs : Option Attrs) : Str :=
  let t := Tag.new true "a".toList (attrs.getD {})
  let t := (t.str " href=\"mailto:".toList).str address
  let t := match subject with | some s => (t.str "?subject=".toList).str (urlEncode s) | none => t
  let t := match body with
    | some b => (t.str (if subject.isSome then "&amp;body=".toList else "?body=".toList)).str (urlEncode b)
    | none => t
  (t.str ['"']).finish

/-- `core/src/file.rs:31-33` — `basename` -/
def basename (s : Str) : Str := (s.reverse.takeWhile fun c => c ≠ '/' && c ≠ '\\').reverse

/-- `core/src/file.rs:35-37` — `stem` -/
def stem (s : Str) : Str := (basename s).takeWhile (· ≠ '.')

/-- `htmlbuf.rs:63-67` — `push_named_or_pos_attr` -/
def namedOrPos (name : String) (i : Nat) (a : Attrs) : Str :=
  match a.named name <|> a.pos i with | some v => Escape.attr name.toList v | none => []

/-- `backend.rs:822-869` — `render_inner_image` of an image that is not inlined. `path` is what `push_img_path`
(`backend.rs:306-314`) makes of the target; alternative texts with markup are left out. -/
def innerImage (target path : Str) (a : Attrs) (isBlock : Bool) : Str :=
  "<img src=\"".toList ++ (if "data:".toList.isPrefixOf target then target else urlEncode path) ++ "\" alt=\"".toList ++
    escape true (match a.named "alt" <|> a.pos 0 with
      | some alt => alt
      | none => (stem target).map fun c => if c = '-' ∨ c = '_' then ' ' else c) ++ ['"'] ++
    namedOrPos "width" 1 a ++ namedOrPos "height" 2 a ++
    (if isBlock then [] else match a.named "title" with | some v => Escape.attr "title".toList v | none => []) ++ ['>']

end Verif.OpenTag

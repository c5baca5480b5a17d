import Verif.Model.OpenTag
import Verif.Spec.Escape
/-!
Specification: how a browser reads a start tag (WHATWG HTML, 13.2.5.6-13.2.5.40, without upper case letters and null), and
what the tags of links and images should say.
-/
namespace Verif.StartTag
open Verif.OpenTag Verif.Spec.Escape

/-- the states of the tokeniser -/
inductive State where
  | data
  | tagOpen
  | tagName
  | beforeName
  | attrName
  | afterName
  | beforeValue
  | double
  | single
  | unquoted
  | afterQuoted
  | selfClosing
deriving DecidableEq, Repr

/-- the tag read so far -/
structure Reader where
  state : State := .data
  /-- text before and after the tag -/
  text : Str := []
  name : Str := []
  /-- names and values of the attributes, as they are written -/
  attrs : List (Str × Str) := []
  /-- tags closed so far -/
  closed : Nat := 0
deriving DecidableEq, Repr

/-- white space -/
def space (c : Char) : Bool := c = ' ' || c = '\n' || c = '\t' || c = '\x0c'

/-- a new attribute -/
def Reader.start (r : Reader) (c : Char) : Reader := { r with state := .attrName, attrs := r.attrs ++ [([c], [])] }

/-- add to the name of the last attribute -/
def Reader.addName (r : Reader) (c : Char) : Reader :=
  { r with attrs := r.attrs.dropLast ++ r.attrs.getLast?.toList.map fun (n, v) => (n ++ [c], v) }

/-- add to the value of the last attribute -/
def Reader.addValue (r : Reader) (c : Char) : Reader :=
  { r with attrs := r.attrs.dropLast ++ r.attrs.getLast?.toList.map fun (n, v) => (n, v ++ [c]) }

/-- the end of the tag -/
def Reader.close (r : Reader) : Reader := { r with state := .data, closed := r.closed + 1 }

/-- before attribute name -/
def Reader.before (r : Reader) (c : Char) : Reader :=
  if space c then { r with state := .beforeName }
  else if c = '/' then { r with state := .selfClosing }
  else if c = '>' then r.close
  else r.start c

/-- one character -/
def Reader.step (r : Reader) (c : Char) : Reader :=
  match r.state with
  | .data => if c = '<' then { r with state := .tagOpen } else { r with text := r.text ++ [c] }
  | .tagOpen => if c.isAlpha then { r with state := .tagName, name := [c] } else { r with state := .data, text := r.text ++ ['<', c] }
  | .tagName =>
    if space c then { r with state := .beforeName }
    else if c = '/' then { r with state := .selfClosing }
    else if c = '>' then r.close
    else { r with name := r.name ++ [c] }
  | .beforeName => r.before c
  | .attrName =>
    if space c then { r with state := .afterName }
    else if c = '/' then { r with state := .selfClosing }
    else if c = '>' then r.close
    else if c = '=' then { r with state := .beforeValue }
    else r.addName c
  | .afterName =>
    if space c then r
    else if c = '/' then { r with state := .selfClosing }
    else if c = '=' then { r with state := .beforeValue }
    else if c = '>' then r.close
    else r.start c
  | .beforeValue =>
    if space c then r
    else if c = '"' then { r with state := .double }
    else if c = '\'' then { r with state := .single }
    else if c = '>' then r.close
    else { r with state := .unquoted }.addValue c
  | .double => if c = '"' then { r with state := .afterQuoted } else r.addValue c
  | .single => if c = '\'' then { r with state := .afterQuoted } else r.addValue c
  | .unquoted =>
    if space c then { r with state := .beforeName } else if c = '>' then r.close else r.addValue c
  | .afterQuoted => r.before c
  | .selfClosing => if c = '>' then r.close else { r with state := .beforeName }.before c

/-- read some text -/
def Reader.read (r : Reader) (s : Str) : Reader := s.foldl Reader.step r

/-- the text is one start tag, with this name and these attributes -/
def IsTag (s : Str) (name : String) (attrs : List (Str × Str)) : Prop :=
  Reader.read {} s = { state := .data, text := [], name := name.toList, attrs := attrs, closed := 1 }

/-- the same, with the values as a reader sees them -/
def Says (s : Str) (name : String) (attrs : List (String × Str)) : Prop :=
  ∃ raw, IsTag s name raw ∧ raw.map (fun (n, v) => (String.ofList n, unescape v)) = attrs

/-- an attribute that may be missing -/
def opt (n : String) (v : Option Str) : List (String × Str) := v.toList.map fun v => (n, v)

/-- a class attribute for a list of classes -/
def classes (cs : List Str) : List (String × Str) := if cs = [] then [] else [("class", joined cs)]

/-- text in an attribute, as a reader sees it: apostrophes are typographic -/
def seen (s : Str) : Str := s.map (curl true)

/-- the words of the `rel` attribute -/
def rel (noopener nofollow : Bool) : List (String × Str) :=
  match noopener, nofollow with
  | true, true => [("rel", "noopener nofollow".toList)]
  | true, false => [("rel", "noopener".toList)]
  | false, true => [("rel", "nofollow".toList)]
  | false, false => []

/-- the window of a link -/
def windowOf (a : Attrs) (blank : Bool) : Option Str := if blank then some "_blank".toList else a.named "window"

/-- what the tag of a link should say: its id, its target, the class `bare` for a link that shows its target, the roles, the
title, the window, and what search engines and the window may do -/
def linkSays (target : Str) (a : Attrs) (mailto hasText blank : Bool) : List (String × Str) :=
  opt "id" (a.id.map seen) ++ [("href", (if mailto then "mailto:".toList else []) ++ target)] ++
    classes ((if hasText || mailto then [] else ["bare".toList]) ++ a.roles) ++
    opt "title" ((a.named "title").map seen) ++ opt "target" (windowOf a blank) ++
    rel (windowOf a blank = some "_blank".toList || ((windowOf a blank).isSome && decide ("noopener" ∈ a.options)))
      (decide ("nofollow" ∈ a.options))

/-- what the tag of an image should say -/
def imageSays (src alt : Str) (a : Attrs) (isBlock : Bool) : List (String × Str) :=
  [("src", src), ("alt", seen alt)] ++ opt "width" ((a.named "width" <|> a.pos 1).map seen) ++
    opt "height" ((a.named "height" <|> a.pos 2).map seen) ++
    (if isBlock then [] else opt "title" ((a.named "title").map seen))

/-- text that is written as it is: no quotes and no references -/
def Plain (s : Str) : Prop := '"' ∉ s ∧ '&' ∉ s

end Verif.StartTag

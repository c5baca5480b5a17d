import Verif.Model.Inlines
import Verif.Model.Regex
/-!
Model of the inline macros for keys, buttons and menus: `parser/src/tasks/parse_inlines/mod.rs:160-163, 270-302, 1046-1083`, and of
the HTML written for them (`dr-html-backend/src/asciidoctor_html.rs:1111-1113, 1234-1247, 1307-1323`).

The input is what follows the name of the macro on its line (`line`), for a line that continues an inline macro
(`Inlines.continuesMacro`). `none` is a panic. Not modelled: locations.
-/
namespace Verif.UiMacros
open Verif TokenKind Inlines Regex

/-- `core/src/regx.rs:49` — `KBD_MACRO_KEYS`: `(?:\s*([^\s,+]+|[,+])\s*)` -/
def keysRe : Re :=
  .seq (.star true (.set space)) (.seq (.cap 1 (.alt (.plus (.set fun c => !space c && c ≠ ',' && c ≠ '+')) (.set fun c => c = ',' || c = '+')))
    (.star true (.set space)))

/-- `Iterator::step_by(2)` -/
def stepBy2 {α : Type} : List α → List α
  | [] => []
  | [a] => [a]
  | a :: _ :: l => a :: stepBy2 l

/-- `mod.rs:1075-1080` — the keys of the text of a macro; `none`: the group has not matched -/
def keysOf (word : Char → Bool) (src : List Char) : Option (List (List Char)) :=
  (stepBy2 (capturesIter word keysRe (src.length + 1) [] src)).mapM fun m => m.group 1

/-- `mod.rs:1055-1072` — the text of the macro (`last`: `last_kind`) and what is left of the line -/
def keysText : Option TokenKind → List Tok → List Char × List Tok
  | _, [] => ([], [])
  | last, t :: l =>
    if t.kind = AttrRef ∨ last.isSome ∧ t.kind = Backslash then keysText (some t.kind) l
    else if t.kind = CloseBracket ∧ last ≠ some Backslash then ([], t :: l)
    else let (s, r) := keysText (some t.kind) l; (t.lexeme ++ s, r)

/-- `line.rs:321-330` — `discard_assert` -/
def discardAssert (k : TokenKind) : List Tok → Option (List Tok)
  | [] => none
  | t :: l => if t.kind = k then some l else none

/-- `mod.rs:1046-1083` — `parse_kbd_macro`: the keys and what is left of the line -/
def parseKbd (word : Char → Bool) : List Tok → Option (List (List Char) × List Tok)
  | [] => none
  | _ :: l =>
    let (src, r) := keysText none l
    match discardAssert CloseBracket r, keysOf word src with
    | some rest, some keys => some (keys, rest)
    | _, _ => none

/-- `line.rs:590-604` — `consume_to_string_until`, without the check that there are tokens -/
def takeUntil (k : TokenKind) : List Tok → List Char × List Tok
  | [] => ([], [])
  | t :: l =>
    if t.kind = k then ([], t :: l)
    else
      let (s, r) := takeUntil k l
      (if t.kind = AttrRef ∨ t.kind = Backslash then s else t.lexeme ++ s, r)

/-- `line.rs:590-604` — `consume_to_string_until` -/
def consumeUntil (k : TokenKind) (l : List Tok) : Option (List Char × List Tok) :=
  if l = [] then none else some (takeUntil k l)

/-- `line.rs:654-658` — `consume_macro_target` -/
def macroTarget (l : List Tok) : Option (List Char × List Tok) :=
  match consumeUntil OpenBracket l with
  | none => none
  | some (s, r) => (discardAssert OpenBracket r).map fun r => (s, r)

/-- `mod.rs:270-276` — the text of a button and what is left of the line -/
def parseBtn (l : List Tok) : Option (List Char × List Tok) :=
  match discardAssert OpenBracket l with
  | none => none
  | some l =>
    match consumeUntil CloseBracket l with
    | none => none
    | some (s, r) => (discardAssert CloseBracket r).map fun r => (s, r)

/-- `str::split` at a character -/
def splitAt (c : Char) : List Char → List (List Char)
  | [] => [[]]
  | x :: l => if x = c then [] :: splitAt c l else
    match splitAt c l with
    | [] => [[x]]
    | s :: ss => (x :: s) :: ss

/-- `str::trim_start`, `str::trim_end` -/
def trim (s : List Char) : List Char := trimEnd (s.dropWhile space)

/-- `mod.rs:277-302` — the items of a menu and what is left of the line -/
def parseMenu (l : List Tok) : Option (List (List Char) × List Tok) :=
  match macroTarget l with
  | none => none
  | some (first, l) =>
    match consumeUntil CloseBracket l with
    | none => none
    | some (s, r) => (discardAssert CloseBracket r).map fun r => (first :: ((splitAt '>' s).map trim).filter (· ≠ []), r)

/-- the string as characters -/
def lit (s : String) : List Char := s.toList

/-- `asciidoctor_html.rs:1238-1243` — the keys after the first one -/
def moreKeys : List (List Char) → List Char
  | [] => []
  | k :: ks => '+' :: lit "<kbd>" ++ k ++ lit "</kbd>" ++ moreKeys ks

/-- `asciidoctor_html.rs:1234-1247` — `visit_keyboard_macro` -/
def kbdHtml (keys : List (List Char)) : List Char :=
  (if keys.length > 1 then lit "<span class=\"keyseq\">" else []) ++
    (match keys with
      | [] => []
      | k :: ks => lit "<kbd>" ++ k ++ lit "</kbd>" ++ moreKeys ks) ++
    (if keys.length > 1 then lit "</span>" else [])

/-- `asciidoctor_html.rs:1111-1113` — `visit_button_macro` -/
def btnHtml (text : List Char) : List Char := lit "<b class=\"button\">" ++ text ++ lit "</b>"

/-- `asciidoctor_html.rs:1314-1321` — the items after the first one -/
def moreItems : List (List Char) → List Char
  | [] => []
  | i :: is => lit "&#160;<b class=\"caret\">&#8250;</b><b class=\"" ++ lit (if is = [] then "menuitem\">" else "submenu\">") ++ i ++ lit "</b>" ++ moreItems is

/-- `asciidoctor_html.rs:1307-1323` — `visit_menu_macro`; `none`: there is no item (`unwrap`), or no second one
(`items.len() - 1`) -/
def menuHtml : List (List Char) → Option (List Char)
  | [] => none
  | [_] => none
  | i :: j :: is => some (lit "<span class=\"menuseq\"><b class=\"menu\">" ++ i ++ lit "</b>" ++ moreItems (j :: is) ++ lit "</span>")

end Verif.UiMacros

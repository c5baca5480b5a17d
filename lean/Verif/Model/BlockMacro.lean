import Verif.Model.AttrList
/-!
Model of the block macros `image::target[…]`, `audio::target[…]`, `video::target[…]`, `toc::[…]` and those of plugins:
`parser/src/tasks/parse_block.rs:53-63`, `529-547`, `571-606`, `parser/src/tasks/parse_image_block.rs:6-26`, `parser/src/line.rs:261-266`,
`345-351`, `590-604`, `654-658`, `746-756`, `parser/src/token.rs:253-267`.

The line is the tokens it has, attribute references replaced. Simplifications: the attribute list is that of `Model/AttrList.lean`; locations
are left out; the kind of image is in `Model/Images.lean`, the table of contents in `Model/TocCheck.lean`. `none` is a panic.
-/
namespace Verif.BlockMacro
open Verif TokenKind AttrList

/-- `parser/src/lexer/root_lexer.rs:61-81` — `is_builtin_macro_name` -/
def builtin (name : List Char) : Bool :=
  ["footnote", "image", "indexterm", "indexterm2", "anchor", "audio", "icon", "kbd", "link", "pass", "btn", "menu", "mailto", "toc", "xref",
    "video"].any (·.toList = name)

/-- `token.rs:253-267` — `can_start_block_macro` -/
def canStart (t : Tk) : Bool :=
  t.kind = MacroName &&
    (t.lexeme = "image:".toList || t.lexeme = "toc:".toList || t.lexeme = "audio:".toList || t.lexeme = "video:".toList || !builtin t.lexeme.dropLast)

/-- `line.rs:345-351` — `ends_with_nonescaped` -/
def endsNonescaped (k : TokenKind) (l : List Tk) : Bool :=
  match l.reverse with
  | [] => false
  | [t] => t.kind = k
  | t :: u :: _ => t.kind = k && u.kind ≠ Backslash

/-- `line.rs:261-266` — `is_block_macro` -/
def isBlockMacro (l : List Tk) : Bool :=
  match l with
  | t :: u :: _ => t.kind = MacroName && u.kind = Colon && canStart t && l.any (·.kind = OpenBracket) && endsNonescaped CloseBracket l
  | _ => false

/-- `line.rs:590-604` — the loop of `consume_to_string_until` an opening bracket -/
def targetLoop : List Tk → List Char × List Tk
  | [] => ([], [])
  | t :: l =>
    if t.kind = OpenBracket then ([], t :: l)
    else
      let (s, r) := targetLoop l
      (if t.kind = AttrRef ∨ t.kind = Backslash then s else t.lexeme ++ s, r)

/-- `line.rs:654-658` — `consume_macro_target` -/
def macroTarget (l : List Tk) : Option (List Char × List Tk) :=
  if l = [] then none
  else match targetLoop l with
    | (s, t :: r) => if t.kind = OpenBracket then some (s, r) else none
    | (_, []) => none

inductive Block where
  | image (target : List Char) (attrs : Attrs)
  | audio (target : List Char) (attrs : Attrs)
  | video (target : List Char) (attrs : Attrs)
  | toc
  | plugin (name : List Char) (target : Option (List Char)) (attrs : Attrs) (source : List Char)
deriving DecidableEq, Repr

/-- `parse_image_block.rs:11-17`, `parse_block.rs:535-540` — the target and the attributes, behind the name and the colon -/
def media (make : List Char → Attrs → Block) (l : List Tk) : Option Block := do
  let (target, l) ← macroTarget l
  let (attrs, _) ← parseBlockMacro l
  return make target attrs

/-- `line.rs:746-756` — `reassemble_src` -/
def reassemble (l : List Tk) : List Char := (l.filter (fun t => t.kind ≠ AttrRef ∧ t.kind ≠ Discard)).flatMap (·.lexeme)

/-- `parse_block.rs:571-606` — `parse_plugin_block_macro` -/
def plugin (line : List Tk) (name : Tk) (l : List Tk) : Option Block := do
  let (target, l) ← (match l with
    | [] => none
    | t :: r => if t.kind = OpenBracket then some (none, r) else (macroTarget (t :: r)).map fun (s, r) => (some s, r) : Option (Option (List Char) × List Tk))
  let (attrs, _) ← parseBlockMacro l
  return .plugin name.lexeme.dropLast target attrs (reassemble line)

/-- `parse_block.rs:55-63` — a block macro; the assertions that the first tokens are a name and a colon hold for a line that is one -/
def blockMacro (line : List Tk) : Option Block :=
  match line with
  | t :: _ :: l =>
    if t.lexeme = "image:".toList then media .image l
    else if t.lexeme = "toc:".toList then some .toc
    else if t.lexeme = "audio:".toList then media .audio l
    else if t.lexeme = "video:".toList then media .video l
    else plugin line t l
  | _ => none

end Verif.BlockMacro

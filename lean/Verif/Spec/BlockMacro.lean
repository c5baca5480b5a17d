import Verif.Model.BlockMacro
import Verif.Spec.AttrList
/-!
Specification of block macros: how they are written.
-/
namespace Verif.BlockMacro
open Verif TokenKind AttrList

/-- a target and what it says; an attribute reference is followed by the tokens of its value -/
inductive Target : List Tk → List Char → Prop where
  | nil : Target [] []
  | ref {t l s} : t.kind = AttrRef → Target l s → Target (t :: l) s
  | tok {t l s} : t.kind ≠ AttrRef → t.kind ≠ OpenBracket → t.kind ≠ Backslash → Target l s → Target (t :: l) (t.lexeme ++ s)

/-- the attributes in the brackets: nothing, or attributes with commas between them -/
inductive InBrackets : List Tk → Attrs → Prop where
  | nothing : InBrackets [] {}
  | list {s ss} : (∀ x ∈ s :: ss, x.ok = true) → (∀ x ∈ s :: ss, ∀ st m ms, x.attr ≠ .shorthand st m ms) → writeList s ss ≠ [] →
      (writeList s ss).getLast?.map (·.kind) ≠ some Backslash → InBrackets (writeList s ss) ((s :: ss).foldl (fun a x => x.attr.apply a) {})

/-- the line of a block macro -/
def macroLine (name : List Char) (target attrs : List Tk) : List Tk :=
  ⟨MacroName, name ++ [':']⟩ :: ⟨Colon, [':']⟩ :: (target ++ ⟨OpenBracket, ['[']⟩ :: (attrs ++ [⟨CloseBracket, [']']⟩]))

/-- the names of macros for running text -/
def inlineNames : List (List Char) :=
  ["footnote", "indexterm", "indexterm2", "anchor", "icon", "kbd", "link", "pass", "btn", "menu", "mailto", "xref"].map (·.toList)

/-- what a block macro is -/
inductive Is : List Char → List Tk → List Char → Attrs → List Char → Block → Prop where
  | image {ts s a src} : Is "image".toList ts s a src (.image s a)
  | audio {ts s a src} : Is "audio".toList ts s a src (.audio s a)
  | video {ts s a src} : Is "video".toList ts s a src (.video s a)
  | toc {ts s a src} : Is "toc".toList ts s a src .toc
  /-- a macro of a plugin has no target if none is written -/
  | plugin {name ts s a src} : name ∉ ["image".toList, "audio".toList, "video".toList, "toc".toList] → Is name ts s a src (.plugin name (if ts = [] then none else some s) a src)

end Verif.BlockMacro

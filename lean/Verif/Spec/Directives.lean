import Verif.Model.Directives
/-! Specification of conditional directives: documents as trees, and what should be kept of them. -/
namespace Verif.Directives

/-- names separated by a character -/
def joinWith (sep : Char) : List (List Char) → List Char
  | [] => []
  | [n] => n
  | n :: ns => n ++ sep :: joinWith sep ns

/-- the attributes of a conditional, separated by commas or by plus signs -/
structure Names where
  sep : Char
  names : List (List Char)
deriving DecidableEq, Repr

/-- as they are written -/
def Names.text (n : Names) : List Char := joinWith n.sep n.names

/-- there is one at least; the separators are no part of a name -/
def Names.Ok (n : Names) : Prop :=
  (n.sep = ',' ∨ n.sep = '+') ∧ n.names ≠ [] ∧ ∀ a ∈ n.names, ∀ c ∈ a, c ≠ ',' ∧ c ≠ '+'

/-- with commas one attribute has to be set, with plus signs all of them; `ifndef` is the opposite of `ifdef` -/
def Names.holds (isSet : List Char → Bool) (defined : Bool) (n : Names) : Bool :=
  let set := if n.sep = ',' then n.names.any isSet else n.names.all isSet
  if defined then set else !set

/-- everything but `ifndef` with plus signs, see `C08_ifndef_plus_violated` -/
def Names.Handled (defined : Bool) (n : Names) : Prop := defined = true ∨ n.sep = ',' ∨ n.names.length = 1

/-- the line of an `ifdef` or `ifndef` -/
def ifLine (defined : Bool) (attrs content : List Char) : List Char :=
  (if defined then "ifdef::".toList else "ifndef::".toList) ++ attrs ++ '[' :: (content ++ [']'])

/-- the line of an `endif` -/
def endLine (target : List Char) : List Char := "endif::".toList ++ target ++ ['[', ']']

/-- the line of an `ifeval` -/
def evalLine (expr : List Char) : List Char := "ifeval::[".toList ++ expr ++ [']']

/-- a properly nested document -/
inductive Doc where
  | nil
  | text (t : List Char) (rest : Doc)
  /-- `ifdef::attrs[content]` -/
  | oneLine (defined : Bool) (attrs : Names) (content : List Char) (rest : Doc)
  /-- `ifdef::attrs[]` … `endif::target[]` -/
  | block (defined : Bool) (attrs : Names) (body : Doc) (target : List Char) (rest : Doc)
  /-- `ifeval::[expr]` … `endif::[]`, with the truth value of the expression -/
  | evalBlock (holds : Bool) (expr : List Char) (body : Doc) (rest : Doc)

namespace Doc

/-- its lines -/
def render : Doc → List DLine
  | nil => []
  | text t rest => ⟨none, [], t⟩ :: rest.render
  | oneLine d a c rest => ⟨some (.ifdef d a.text c), [], ifLine d a.text c⟩ :: rest.render
  | block d a body target rest =>
    ⟨some (.ifdef d a.text []), [], ifLine d a.text []⟩ ::
      (body.render ++ ⟨some (.endif target), [], endLine target⟩ :: rest.render)
  | evalBlock h e body rest =>
    ⟨some (.ifeval (some h)), [], evalLine e⟩ :: (body.render ++ ⟨some (.endif []), [], endLine []⟩ :: rest.render)

/-- the lines to keep -/
def expected (isSet : List Char → Bool) : Doc → List (List Char)
  | nil => []
  | text t rest => t :: rest.expected isSet
  | oneLine d a c rest => (if a.holds isSet d then [c] else []) ++ rest.expected isSet
  | block d a body _ rest =>
    (if a.holds isSet d then body.expected isSet else []) ++ rest.expected isSet
  | evalBlock h _ body rest => (if h then body.expected isSet else []) ++ rest.expected isSet

/-- only text and multi-line `ifdef`/`ifndef` blocks -/
def Plain : Doc → Prop
  | nil => True
  | text _ rest => rest.Plain
  | oneLine .. => False
  | block _ _ body _ rest => body.Plain ∧ rest.Plain
  | evalBlock .. => False

/-- no conditional at all -/
def NoCond : Doc → Prop
  | nil => True
  | text _ rest => rest.NoCond
  | _ => False

/-- one-line conditionals have content; an endif names nothing or its own conditional -/
def WellFormed : Doc → Prop
  | nil => True
  | text _ rest => rest.WellFormed
  | oneLine _ a c rest => a.Ok ∧ c ≠ [] ∧ rest.WellFormed
  | block _ a body target rest => a.Ok ∧ (target = [] ∨ target = a.text) ∧ body.WellFormed ∧ rest.WellFormed
  | evalBlock _ _ body rest => body.WellFormed ∧ rest.WellFormed

/-- what the code supports: no `ifndef` with plus signs, bodies that are dropped are plain, and an endif that names its
conditional closes a kept block without conditionals in it -/
def Supported (isSet : List Char → Bool) : Doc → Prop
  | nil => True
  | text _ rest => rest.Supported isSet
  | oneLine d a _ rest => a.Handled d ∧ rest.Supported isSet
  | block d a body target rest =>
    a.Handled d ∧
    (if a.holds isSet d then body.Supported isSet ∧ (target = [] ∨ body.NoCond) else body.Plain) ∧
      rest.Supported isSet
  | evalBlock h _ body rest => (if h then body.Supported isSet else body.Plain) ∧ rest.Supported isSet

end Doc
end Verif.Directives

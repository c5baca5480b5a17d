import Verif.Model.Subs
/-!
Specification of substitution lists: an ordered list without duplicates.
-/
namespace Verif

/-- operations a history may contain -/
inductive SubOp where
  | insert (x : Sub) | remove (x : Sub) | prepend (x : Sub) | append (x : Sub)
deriving DecidableEq, Repr

/-- What each operation should do to the ordered list of active substitutions. -/
def SubOp.spec (l : List Sub) : SubOp → List Sub
  | .insert x => if x ∈ l then l else l ++ [x]
  | .remove x => l.erase x
  | .prepend x => x :: l.erase x
  | .append x => l.erase x ++ [x]

/-- What the code does (`none` = panic). -/
def SubOp.run (s : Substitutions) : SubOp → Option Substitutions
  | .insert x => some (s.insert x)
  | .remove x => some (s.remove x)
  | .prepend x => s.prepend x
  | .append x => s.append x

/-- the ordered list of active substitutions of a value -/
def Substitutions.list (s : Substitutions) : List Sub := s.order.filterMap id

/-- membership after one textual part of a `subs` attribute -/
def SubStrategy.mem (st : SubStrategy) (g : StepOrGroup) (before : Sub → Bool) (x : Sub) : Bool :=
  match st with
  | .remove => before x && !(g.subs.contains x)
  | _ => before x || g.subs.contains x

/-- how a part of a `subs` attribute is marked: `x`, `+x`, `x+`, `-x` -/
inductive SubMark where
  | plain | before | after | minus
deriving DecidableEq, Repr

/-- the part as the author writes it -/
def SubMark.write : SubMark → List Char → List Char
  | .plain, name => name
  | .before, name => '+' :: name
  | .after, name => name ++ ['+']
  | .minus, name => '-' :: name

/-- The names an author can use and what they stand for (the entry for `verbatim` is what the code
does, see `C25_verbatim_group_violated`). -/
def subNames : List (List Char × List Sub) :=
  [("none".toList, []),
   ("normal".toList, [.specialChars, .inlineFormatting, .attrRefs, .charReplacement, .macros, .postReplacement]),
   ("verbatim".toList, [.specialChars, .charReplacement]),
   ("specialchars".toList, [.specialChars]),
   ("callouts".toList, [.callouts]),
   ("quotes".toList, [.inlineFormatting]),
   ("attributes".toList, [.attrRefs]),
   ("replacements".toList, [.charReplacement]),
   ("macros".toList, [.macros]),
   ("post_replacements".toList, [.postReplacement])]

/-- what a marked part does with a substitution it names: `-` removes it, a trailing `+` puts it first,
otherwise it is put last unless it is active already -/
def SubMark.op : SubMark → Sub → SubOp
  | .minus, x => .remove x
  | .after, x => .prepend x
  | _, x => .insert x

end Verif

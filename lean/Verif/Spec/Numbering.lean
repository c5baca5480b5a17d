import Verif.Model.Numbering
/-! What section numbers should be, without counters: the number of a section is
the list of the 1-based positions of its ancestors and itself among their
numbered siblings. -/
namespace Verif.Spec.Numbering
open Verif.Numbering

/-- positions written out, as in `1.2.3. `, after the letter of the appendix
with a dot (empty outside appendices) -/
def dotted (letter : List Char) (path : List Nat) : List Char :=
  letter ++ path.flatMap (fun n => (toString n).toList ++ ['.']) ++ [' ']

/-- The word printed before chapter numbers in books. -/
def signifier (cfg : Cfg) (level : Nat) : List Char :=
  if level = 1 ∧ cfg.doctype = .book then (cfg.chapterSignifier.map (· ++ [' '])).getD [] else []

/-- The section gets a number: `sectnums` is `all`, or it is on and the section
is not of a kind the document type has no place for; and it is not deeper than
`sectnumlevels`. -/
def Numbered : Sect → Prop
  | .mk cfg part _ level special _ =>
    part = false ∧ special ≠ some .appendix ∧ (level : Int) ≤ cfg.levels ∧
      (cfg.sectnums = .all ∨ cfg.sectnums = .yes ∧ ∀ sp, special = some sp → supports cfg.doctype sp = true)

instance : DecidablePred Numbered := fun s => by
  cases s with
  | mk cfg part authored level special children =>
    cases special with
    | none => exact decidable_of_iff (part = false ∧ (level : Int) ≤ cfg.levels ∧ (cfg.sectnums = .all ∨ cfg.sectnums = .yes)) (by simp [Numbered])
    | some sp => exact decidable_of_iff (part = false ∧ sp ≠ .appendix ∧ (level : Int) ≤ cfg.levels ∧
        (cfg.sectnums = .all ∨ cfg.sectnums = .yes ∧ supports cfg.doctype sp = true)) (by simp [Numbered])

mutual
/-- the labels of a section at position `path` and of everything inside it -/
def labels (letter : List Char) (path : List Nat) : Sect → List (List Char)
  | .mk cfg _ _ level _ children => (signifier cfg level ++ dotted letter path) :: labelsAll letter path 0 children
/-- the labels of siblings below `path`, `k` numbered ones being before them;
sections without a number have no label -/
def labelsAll (letter : List Char) (path : List Nat) (k : Nat) : List Sect → List (List Char)
  | [] => []
  | s :: ss => if Numbered s then labels letter (path ++ [k + 1]) s ++ labelsAll letter path (k + 1) ss
      else blanks s ++ labelsAll letter path k ss
/-- no label for any section inside -/
def blanks : Sect → List (List Char)
  | .mk _ _ _ _ _ children => [] :: blanksAll children
@[inherit_doc blanks]
def blanksAll : List Sect → List (List Char)
  | [] => []
  | s :: ss => blanks s ++ blanksAll ss
end

mutual
/-- Ordinary sections: no parts, no appendices, levels going down one at a time,
at most five levels and 65535 siblings, and the sections inside one without a
number have none either. -/
def Plain (level : Nat) : Sect → Prop
  | .mk cfg part authored l special children =>
    part = false ∧ special ≠ some .appendix ∧ l = level ∧ level ≤ 5 ∧
      (¬ Numbered (.mk cfg part authored l special children) → SilentAll children) ∧
      children.length ≤ 65535 ∧ PlainAll (level + 1) children
@[inherit_doc Plain]
def PlainAll (level : Nat) : List Sect → Prop
  | [] => True
  | s :: ss => Plain level s ∧ PlainAll level ss
/-- no section here has a number -/
def Silent : Sect → Prop
  | .mk cfg part authored l special children =>
    part = false ∧ special ≠ some .appendix ∧ ¬ Numbered (.mk cfg part authored l special children) ∧ SilentAll children
@[inherit_doc Silent]
def SilentAll : List Sect → Prop
  | [] => True
  | s :: ss => Silent s ∧ SilentAll ss
end

/-- the `k`-th letter, from 0 -/
def alphabet : List Char := "ABCDEFGHIJKLMNOPQRSTUVWXYZ".toList

/-- the caption of the appendix with this letter -/
def caption (cfg : Cfg) (letter : Char) : List Char :=
  match cfg.caption with
  | .text s => s ++ ' ' :: letter :: ": ".toList
  | .isFalse => letter :: ". ".toList
  | .neither => letter :: ": ".toList

mutual
/-- no appendix among the section and the sections inside it -/
def NoAppendix : Sect → Prop
  | .mk _ part _ _ special children => (part = false → special ≠ some .appendix) ∧ NoAppendixAll children
@[inherit_doc NoAppendix]
def NoAppendixAll : List Sect → Prop
  | [] => True
  | s :: ss => NoAppendix s ∧ NoAppendixAll ss
end

/-- the label of the `i`-th part -/
def partLabel (cfg : Cfg) (i : Nat) : List Char :=
  if cfg.partnums then (cfg.partSignifier.map (· ++ [' '])).getD [] ++ (Roman.toRoman i).getD [] ++ ": ".toList else []

/-- the labels of a book with the given parts, all with the same attributes:
parts are counted, chapters are counted through all parts -/
def partsLabels (cfg : Cfg) (i k : Nat) : List (List Sect) → List (List Char)
  | [] => []
  | chapters :: ps => partLabel cfg (i + 1) :: labelsAll [] [] k chapters ++
      partsLabels cfg (i + 1) (k + chapters.countP (Numbered ·)) ps

mutual
/-- the levels of a section and the sections inside, in document order, parts
being at level 0 -/
def levels : Sect → List Nat
  | .mk _ part _ level _ children => (if part then 0 else level) :: levelsAll children
@[inherit_doc levels]
def levelsAll : List Sect → List Nat
  | [] => []
  | s :: ss => levels s ++ levelsAll ss
end

mutual
/-- The document attributes stay the same, every section is at the level it was
written at (parts at level 0, others below) and below the one around it, and
appendices are at most at level `d`. -/
def Steady (cfg : Cfg) (d above : Nat) : Sect → Prop
  | .mk c part authored level special children =>
    c = cfg ∧ (if part then authored = 0 ∧ above = 0 ∧ SteadyAll cfg d 1 children
      else authored = level ∧ above ≤ level ∧ 1 ≤ level ∧ (special = some .appendix → level ≤ d) ∧
        SteadyAll cfg d (level + 1) children)
@[inherit_doc Steady]
def SteadyAll (cfg : Cfg) (d above : Nat) : List Sect → Prop
  | [] => True
  | s :: ss => Steady cfg d above s ∧ SteadyAll cfg d above ss
end

/-- the labels of the sections at most at level `d` -/
def listed (d : Nat) (levels : List Nat) (labels : List (List Char)) : List (List Char) :=
  ((levels.zip labels).filter (·.1 ≤ d)).map (·.2)

end Verif.Spec.Numbering

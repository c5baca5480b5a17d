import Verif.Model.Callouts
/-! What callouts mean, independently of how they are kept. -/
namespace Verif.Callouts

/-- A callout or the marker of an item as it is written: `<.>`, `<7>`, `<!--.-->`, `<!--7-->` -/
structure Mark where
  number : Option Nat
  xml : Bool
deriving DecidableEq, Repr

def Mark.write (m : Mark) : List Char :=
  (if m.xml then "<!--".toList else ['<']) ++ (match m.number with | none => ['.'] | some n => Nat.toDigits 10 n) ++
    (if m.xml then "-->".toList else ['>'])

/-- The numbers of marks: `<.>` is one more than the mark before it. -/
def numbers : Nat → List Mark → List Nat
  | _, [] => []
  | prev, m :: ms => let n := m.number.getD (prev + 1); n :: numbers n ms

/-- Verbatim blocks with callouts, and the callout list that explains them -/
structure Group where
  blocks : List (List Mark)
  items : List Mark

def Group.marks (g : Group) : List Mark := g.blocks.flatten

def Group.events (g : Group) : List Ev :=
  g.blocks.flatMap (fun b => .block :: b.map fun m => .callout m.write) ++
    .listStart :: g.items.map (fun m => .item m.write) ++ [.listEnd]

/-- item number `k` refers to exactly the callouts of the group that are numbered `k`; it is a problem if there is none,
or if the number that is written is not the next one -/
def itemOuts (shown : List Callout) : Nat → List Mark → List Out
  | _, [] => []
  | prev, m :: ms =>
    let n := m.number.getD (prev + 1)
    .item n (shown.filter fun c => c.number = n) (decide (n ≠ prev + 1)) (shown.all fun c => c.number ≠ n) ::
      itemOuts shown n ms

/-- what is shown for a document of groups -/
def Shows : List Group → List Out → Prop
  | [], outs => outs = []
  | g :: gs, outs => ∃ shown rest, outs = shown.map .callout ++ itemOuts shown 0 g.items ++ rest ∧
      shown.map Callout.number = numbers 0 g.marks ∧ shown.map Callout.xml = g.marks.map Mark.xml ∧ Shows gs rest

/-- the callouts among what is shown -/
def Out.callout? : Out → Option Callout
  | .callout c => some c
  | .item _ _ _ _ => none

/-- a number that fits -/
def Mark.ok (m : Mark) : Prop := ∀ n ∈ m.number, 1 ≤ n ∧ n ≤ 255

/-- every number fits into a `u8`, and so does the number after an item -/
def GroupOk (g : Group) : Prop :=
  (∀ m ∈ g.marks, m.ok) ∧ (∀ m ∈ g.items, m.ok) ∧ (∀ n ∈ numbers 0 g.marks, n ≤ 255) ∧ g.marks.length ≤ 256 ∧
    (∀ n ∈ numbers 0 g.items, n ≤ 254)

end Verif.Callouts

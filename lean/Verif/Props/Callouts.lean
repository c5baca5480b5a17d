import Verif.Lemmas.Callouts
/-! C34 — callouts and callout lists. -/
namespace Verif.Props
open Verif.Callouts

/-- C34 for documents of verbatim blocks and callout lists: the callouts are numbered as `numbers` says — an automatic
one is one more than the callout before it, beginning with 1 after each list — and every item of a list refers to
exactly the callouts of its number among those that stand between the previous list and this one, with a problem
reported exactly if there are none or the number is not the next one. No two callouts have the same id.

Missing: the numbers of a block do not begin with 1 if an earlier block has callouts and no list follows it
(`C34_violated_blocks`); numbers from 1 to 255 only (254 for items), at most 256 callouts in a group and 255 lists (the
theorems below); nested callout lists. -/
theorem C34_lists_match_partial (gs : List Group) (hok : ∀ g ∈ gs, GroupOk g) (hlen : gs.length ≤ 255) :
    ∃ outs s, run {} (gs.flatMap Group.events) = some (outs, s) ∧ Shows gs outs ∧
      ((outs.filterMap Out.callout?).map fun c => (c.listIdx, c.calloutIdx)).Nodup := by
  obtain ⟨outs, s, h1, h2, _, h3⟩ := run_groups gs 0 [] (.inl ⟨rfl, rfl⟩) hok (by omega)
  exact ⟨outs, s, h1, h2, h3⟩

/-- With automatic callouts only, the numbers are 1, 2, 3, … -/
theorem C34_automatic_numbers (ms : List Mark) (h : ∀ m ∈ ms, m.number = none) :
    numbers 0 ms = List.range' 1 ms.length := numbers_auto ms h 0

/-- The number that is written is the number that is read, up to 255; beyond, the callout counts as automatic. -/
theorem C34_written_number (n : Nat) (xml : Bool) :
    parseCalloutNum (Mark.write ⟨some n, xml⟩) = if n ≤ 255 then some n else none := by rw [parse_write]; rfl

section
def auto : Mark := ⟨none, false⟩
def num (n : Nat) : Mark := ⟨some n, false⟩

/-- two groups: `<.>` and `<.>` `<1>` in two blocks, explained by `<.>` `<2>`; then `<!--5-->`, explained by `<5>` `<.>` -/
def exGroups : List Group := [⟨[[auto], [auto, num 1]], [auto, num 2]⟩, ⟨[[⟨some 5, true⟩]], [num 5, auto]⟩]

example : (∀ g ∈ exGroups, GroupOk g) ∧ exGroups.length ≤ 255 := by
  refine ⟨?_, by decide⟩
  intro g hg
  simp only [exGroups, List.mem_cons, List.not_mem_nil, or_false] at hg
  rcases hg with rfl | rfl <;>
    simp [GroupOk, Group.marks, numbers, auto, num, Mark.ok]

example : (run {} (exGroups.flatMap Group.events)).map Prod.fst = some [.callout ⟨0, 0, 1, false⟩, .callout ⟨0, 1, 2, false⟩,
    .callout ⟨0, 2, 1, false⟩, .item 1 [⟨0, 0, 1, false⟩, ⟨0, 2, 1, false⟩] false false, .item 2 [⟨0, 1, 2, false⟩] false false,
    .callout ⟨1, 0, 5, true⟩, .item 5 [⟨1, 0, 5, true⟩] true false, .item 6 [] false true] := by decide
end

/-- Two blocks, each with one automatic callout, and no list between them: the callout of the second is numbered 2. -/
theorem C34_violated_blocks : (run {} [.block, .callout ['<', '.', '>'], .block, .callout ['<', '.', '>']]).map Prod.fst =
    some [.callout ⟨0, 0, 1, false⟩, .callout ⟨0, 1, 2, false⟩] := by decide

/-- `<0>` marks the place of the first callout after a list: the next callout takes its place, and its id; the item
`<0>` refers to nothing. -/
theorem C34_violated_zero : (run {} [.block, .callout ['<', '0', '>'], .callout ['<', '1', '>'], .listStart,
      .item ['<', '0', '>']]).map Prod.fst =
    some [.callout ⟨0, 0, 0, false⟩, .callout ⟨0, 0, 1, false⟩, .item 0 [] true true] := by decide

/-- After a list, the item `<0>` of another list refers to a callout that does not exist. -/
theorem C34_violated_sentinel : (run {} [.block, .callout ['<', '1', '>'], .listStart, .item ['<', '1', '>'], .listEnd, .listStart,
      .item ['<', '0', '>']]).map Prod.fst =
    some [.callout ⟨0, 0, 1, false⟩, .item 1 [⟨0, 0, 1, false⟩] false false, .item 0 [⟨1, 0, 0, false⟩] true false] := by decide

/-- Numbers above 255 are read as automatic ones: `<256>` is the first callout. -/
theorem C34_violated_large : (run {} [.block, .callout ['<', '2', '5', '6', '>']]).map Prod.fst =
    some [.callout ⟨0, 0, 1, false⟩] := by decide

/-- The parser stops: an item numbered 255; an automatic callout after the callout 255. -/
theorem C34_stops : run {} [.listStart, .item ['<', '2', '5', '5', '>']] = none ∧
    run {} [.block, .callout ['<', '2', '5', '5', '>'], .callout ['<', '.', '>']] = none := by decide

end Verif.Props

import Verif.Lemmas.Discrete
/-! C122: a heading marked discrete is no section. -/
namespace Verif.Props
open Verif.Sections Verif.Spec.Sections Verif.Spec.Discrete Verif.Discrete

/-- **C122**, for every article, strict or not and however its blocks nest: no
section, at any depth, has a heading that is marked `[discrete]` or `[float]`;
the discrete headings stay blocks of their own, all of them and in order; and
outside delimited blocks a heading without the mark never stays a block of its
own. Partial: books are left out, where this is false. -/
theorem C122_articles_partial {env : Env} {chunks : List (Item × List Item)} {trailing toc : Bool} {doc : Doc} {st : St}
    (hb : env.book = false) (h : parseDoc env chunks trailing toc = .ok (doc, st)) :
    (∀ i ∈ headsAll (topSections doc), discrete i = false) ∧
    (leavesAll (topSections doc)).filter discrete = (docItems doc).filter discrete ∧
    (∀ i ∈ openLeavesAll (topSections doc), ordinary i = false) := by
  obtain ⟨_, h2, h3⟩ := Outline.doc_tidy hb h
  obtain ⟨pre, secs, hs, hdoc⟩ := Outline.article hb h
  obtain ⟨s1, hp, hq⟩ := sectioned_ok hs
  have hpl : Plain (headsAll (topSections doc)) := by
    subst hdoc
    split
    · exact blocks_plain hp
    · rw [topSections, headsAll_append]
      exact plain_append.2 ⟨blocks_plain hp, sections_plain (blocks_next hp) hq⟩
  refine ⟨hpl, ?_, openAll_tidy _ h2⟩
  rw [h3]
  exact leavesAll_filter _ hpl

/-- **C122** inside the parts of a book: whatever the part, its introduction and
its sections are made the way articles are. -/
theorem C122_in_parts {env : Env} {n : Nat} {st st' : St} {p : Part} (h : parsePart env n st = .ok (some p, st')) :
    ∀ i ∈ headsAll (p.intro ++ p.sections), discrete i = false := by
  unfold parsePart at h
  split at h
  · cases h
  · rename_i q s hq
    split at h
    · cases h
    · split at h
      · cases h
      · split at h
        · cases h
        · rename_i pre secs s2 hs
          split at h
          · cases h
          · injection h with h; injection h with h _; injection h with h
            subst h
            obtain ⟨s1, hp, hq⟩ := sectioned_ok hs
            simp only [headsAll_append]
            exact plain_append.2 ⟨blocks_plain hp, sections_plain (blocks_next hp) hq⟩

private def mixed : List (Item × List Item) :=
  [(.para 0, []), (.heading 1 1 none true, []), (.heading 1 2 none false, []), (.heading 2 3 none true, [.para 1]),
   (.heading 2 4 none false, []), (.heading 1 5 none true, []), (.heading 1 6 none false, [])]

example : ∃ doc st, parseDoc ⟨true, false, 2⟩ mixed false false = .ok (doc, st) ∧
    headsAll (topSections doc) = [.heading 1 2 none false, .heading 2 4 none false, .heading 1 6 none false] ∧
    (leavesAll (topSections doc)).filter discrete =
      [.heading 1 1 none true, .heading 2 3 none true, .heading 1 5 none true] := ⟨_, _, rfl, rfl, rfl⟩

/-- **C122 violated** in books: a discrete heading of level zero is made a part,
and one with the name of a special section is made that section. -/
theorem C122_books_violated :
    (∃ doc st p, parseDoc ⟨false, true, 2⟩ [(.heading 0 1 none true, []), (.para 0, [])] false false = .ok (doc, st) ∧
      doc = .parts [] [] [p] [] ∧ discrete p.title = true) ∧
    (∃ doc st, parseDoc ⟨false, true, 2⟩ [(.heading 1 1 (some .appendix) true, []), (.para 0, [])] false false = .ok (doc, st) ∧
      headsAll (topSections doc) = [.heading 1 1 (some .appendix) true]) :=
  ⟨⟨_, _, _, rfl, rfl, rfl⟩, ⟨_, _, rfl, rfl⟩⟩

end Verif.Props

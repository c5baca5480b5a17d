import Verif.Lemmas.Renders
import Verif.Props.Balanced
/-! Property theorems for C65: rendering does not panic. -/
namespace Verif.Props
open Verif.Ast Verif.Eval Verif.Html Verif.Spec.Eval Verif.Spec.Notes Verif.Spec.Renders

/-- **C65.** For every document tree whose blocks have the kind of content their context
asks for, with any anchors, rendering comes to an end and gives an output; no assertion
fails and nothing is taken from an empty stack (missing: the trees that are not
`Renderable`, for which it may be false; see the theorems below). -/
theorem C65_rendering_does_not_panic_partial (anchors : Text → Option Anchor) (n : Nat) (d : Doc) (h : Renderable (inlines (htmlEnv anchors) n) d) :
    ∃ out, render anchors n d = some out := by
  obtain ⟨s, hs⟩ := Renders.visit_total (inlines_I (htmlEnv anchors) n) d h {} rfl rfl
  exact ⟨s.cur.html, by rw [render, trace, hs]; rfl⟩

/-- a block with a title -/
def rnTitled (c : Context) (title : List Inline) (content : Content) : Block := .mk (evInfo c) (some title) none none content

/-- A page with footnotes in texts, a preamble, sections down to the sixth level,
titles on a paragraph, a list, a passthrough and a table, a description list, a document
with a footnote and a title in a cell of a document in a cell, a menu, an image that
links to itself. -/
def rnSample : Doc :=
  .mk evMeta (some [evText 't', .footnote none (some [evText 'n'])]) (some ⟨.preamble, [.mk 1 [evText 's'] []]⟩) (some [evText 'h']) none (some [evText 'f'])
    (.sections (some [evPara [evText 'p', .footnote none (some [evText 'n'])]])
      [.mk ⟨1, true⟩ [evText 's'] [
        rnTitled .paragraph [evText 'l'] (.simple [.leaf (.menu 3), .leaf (.image true true)]),
        rnTitled .passthrough [evText 'l'] (.simple [evText 'l']),
        rnTitled .orderedList [evText 'l'] (.list .ordered [.plain [evText 'a'] [blDlist .horizontal [blItem [rnTitled .paragraph [evText 'l'] (.simple [])]]]]),
        blDlist .qanda [.desc [evText 'q'] [] none []],
        rnTitled .table [evText 'l'] (.table none [[.asciidoc (evDoc [blTable (.mk { evMeta with showTitle := false } (some [evText 'u']) none none none none
          (.blocks [rnTitled .example [evText 'l'] (.compound [evPara [.footnote none (some [evText 'm'])]])]))])]] none),
        .mk (evInfo .sectionBlock) none none none (.section (.mk ⟨6, true⟩ [evText 'd'] []))]])

example : Renderable (inlines (htmlEnv fun _ => none) 3) rnSample where
  formed := by
    simp [rnSample, rnTitled, blTable]; wellFormed
  blocks := by
    simp [rnSample, rnTitled, blTable, blDlist, blItem, evDoc, evPara, evInfo, AllDoc, AllDocContent, AllOptBlocks, AllOptBlock, AllSects, AllSect, AllBlocks, AllBlock, AllContent, AllItems, AllItem,
      AllEdge, AllRows, AllCells, AllCell, blockFits, docFits, cellFits, titleShown, showsTitle, evMeta]
    refine ⟨by decide +kernel, ⟨by decide +kernel, ?_, by decide +kernel⟩, by decide +kernel⟩
    rintro _ _ _ _ _ _ rfl _
    simp [AllBlock, AllContent, plainParagraph]
  doc := by simp [rnSample, docFits, titleShown, evMeta]
  texts := List.all_eq_true.1 (by decide +kernel)
  calls := List.all_eq_true.1 (by decide +kernel)

/-- a footnote -/
def rnNote : Inline := .footnote none (some [evText 'n'])

/-- A footnote in the title of a block: its text overwrites the first part of the
title, and the assertion that the second buffer is empty fails. -/
theorem C65_footnote_in_title_violated : WellFormed (evDoc [rnTitled .paragraph [evText 'l', rnNote] (.simple [evText 'p'])]) ∧
    render (fun _ => none) 1 (evDoc [rnTitled .paragraph [evText 'l', rnNote] (.simple [evText 'p'])]) = none :=
  ⟨by simp [rnTitled]; wellFormed, by decide +kernel⟩

/-- An image in the title of a block that links to itself: the title is overwritten and
what is left of it is pushed into the link. -/
theorem C65_image_in_title_violated : WellFormed (evDoc [rnTitled .paragraph [evText 'l', .leaf (.image true true)] (.simple [evText 'p'])]) ∧
    render (fun _ => none) 1 (evDoc [rnTitled .paragraph [evText 'l', .leaf (.image true true)] (.simple [evText 'p'])]) = none :=
  ⟨by simp [rnTitled]; wellFormed, by decide +kernel⟩

/-- The title of a page break is not shown, and is still there when the text of a
footnote is to be kept. -/
theorem C65_unused_title_violated : WellFormed (evDoc [rnTitled .pageBreak [evText 'l'] .empty, evPara [rnNote]]) ∧
    render (fun _ => none) 1 (evDoc [rnTitled .pageBreak [evText 'l'] .empty, evPara [rnNote]]) = none :=
  ⟨by simp [rnTitled]; wellFormed, by decide +kernel⟩

/-- So is a title that is not shown because the document is of type `inline`. -/
theorem C65_inline_document_violated :
    ∃ d, d = Doc.mk { evMeta with inlineDoctype := true } none none none none none (.blocks [rnTitled .paragraph [evText 'l'] (.simple [rnNote])]) ∧
      WellFormed d ∧ render (fun _ => none) 1 d = none :=
  ⟨_, rfl, by simp [rnTitled]; wellFormed, by decide +kernel⟩

/-- A footnote in a document title that is not shown. -/
theorem C65_hidden_document_title_violated :
    ∃ d, d = Doc.mk { evMeta with showTitle := false } (some [evText 't', rnNote]) none none none none (.blocks []) ∧
      WellFormed d ∧ render (fun _ => none) 1 d = none :=
  ⟨_, rfl, by wellFormed, by decide +kernel⟩

/-- A footnote in a footnote. -/
theorem C65_nested_footnote_violated : WellFormed (evDoc [evPara [.footnote none (some [evText 'a', rnNote])]]) ∧
    render (fun _ => none) 1 (evDoc [evPara [.footnote none (some [evText 'a', rnNote])]]) = none :=
  ⟨by wellFormed, by decide +kernel⟩

/-- A section of level seven: there is no heading element for it. -/
theorem C65_deep_section_violated :
    ∃ d, d = Doc.mk evMeta none none none none none (.sections none [.mk ⟨7, true⟩ [evText 's'] []]) ∧ WellFormed d ∧ render (fun _ => none) 1 d = none :=
  ⟨_, rfl, by wellFormed, by decide +kernel⟩

/-- Up to level six all is well. -/
example : ∀ l ∈ List.range 7, (render (fun _ => none) 1 (.mk evMeta none none none none none (.sections none [.mk ⟨l, true⟩ [evText 's'] []]))).isSome := by decide +kernel

/-- A menu of one item. -/
theorem C65_short_menu_violated : WellFormed (evDoc [evPara [.leaf (.menu 1)]]) ∧ render (fun _ => none) 1 (evDoc [evPara [.leaf (.menu 1)]]) = none :=
  ⟨by wellFormed, by decide +kernel⟩

end Verif.Props

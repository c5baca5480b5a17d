import Verif.Lemmas.BalancedDoc
import Verif.Props.Eval
/-! Property theorems for C43: the tags of the generated HTML are balanced. -/
namespace Verif.Props
open Verif.Ast Verif.Eval Verif.Html Verif.Spec.Eval Verif.Spec.Html Verif.Spec.Balanced

/-- **C43.** For every document tree whose blocks have the kind of content their
context asks for, with any anchors, the output is well bracketed: every opened element
is closed in the right order (missing: the trees that are not `Tidy`, for which it is
false; see the theorems below). -/
theorem C43_balanced_partial (anchors : Text → Option Anchor) (n : Nat) (d : Doc) (out : List Tok) (hw : WellFormed d) (ht : Tidy d)
    (h : render anchors n d = some out) : Balanced out := by
  unfold render at h
  cases hr : run (trace (htmlEnv anchors) n d) {} with
  | none => rw [hr] at h; cases h
  | some s =>
    rw [hr] at h; cases h
    have := Bal.visit_V (inlines_I (htmlEnv anchors) n) false d (AllDoc.and _ hw ht.1) ht.2 (fun h => Bool.noConfusion h) {} s ⟨rfl, by simp⟩ hr
    exact Bal.balanced_iff.2 (this.2.1 [])

/-- the layout of a description list -/
def blDlist (style : DlistStyle) (items : List Item) : Block :=
  .mk { evInfo .descriptionList with dlist := style } none none none (.list .description items)
@[inherit_doc blDlist]
def blItem (blocks : List Block) : Item := .desc [evText 'k'] [] (some (evPara [evText 'v'])) blocks
/-- icons are switched on -/
def blIcons : Meta := { evMeta with icons := .font }
@[inherit_doc blIcons]
def blDeclare : Block := .mk (evInfo .documentAttributeDecl) none none none (.declaration blIcons)
/-- a callout list -/
def blCallouts (blocks : List Block) : Block := .mk (evInfo .calloutList) none none none (.list .callout [.plain [evText 'c'] blocks])

/-- A page with a preamble, a table of contents, all kinds of description lists, one
of them in an item of an ordered list, callout lists before and after a declaration, a
verse with attribution and citation, a table with a header, a document in a cell and
literal text, an open block, titles and a footnote. -/
def blSample : Doc :=
  .mk evMeta (some [evText 't']) (some ⟨.preamble, [.mk 1 [evText 's'] []]⟩) (some [evText 'h']) none (some [evText 'f'])
    (.sections (some [evPara [evText 'p', .footnote none (some [evText 'n'])]])
      [.mk ⟨1, true⟩ [evText 's'] [
        .mk (evInfo .orderedList) (some [evText 'l']) none none (.list .ordered [.plain [evText 'a'] [blDlist .horizontal [blItem [evPara [evText 'b']]]], .plain [evText 'c'] []]),
        blDlist .qanda [.desc [evText 'q'] [[evText 'r']] none [evPara [evText 'a']]],
        blDlist .glossary [blItem [blDlist .plain [.desc [evText 'x'] [[evText 'y']] none []]]],
        blCallouts [evPara [evText 'p']], blDeclare, blCallouts [evPara [evText 'p']],
        .mk (evInfo .verse) none (some [evText 'a']) (some [evText 'c']) (.simple [evText 'v']),
        .mk (evInfo .table) (some [evText 'l']) none none
          (.table (some [.paragraphs .default [[evText 'x']], .paragraphs .default []]) [[.paragraphs .header [[evText 'x']], .asciidoc (evDoc [evPara [evText 'y']])], [.literal [evText 'z'], .literal []]] none),
        .mk { evInfo .openBlock with isAbstract := true } none none none (.compound [evPara [evText 'o']])]])

example : WellFormed blSample := by
  simp [WellFormed, blSample, blDlist, blItem, blCallouts, blDeclare, evDoc, evPara, evInfo, AllDoc, AllDocContent, AllOptBlocks, AllOptBlock, AllSects, AllSect, AllBlocks, AllBlock,
    AllContent, AllItems, AllItem, AllEdge, AllRows, AllCells, AllCell, Fits]
example : Tidy blSample := by
  simp [Tidy, tidy, tocFits, hasPreamble, noDlist, noTableDlist, noDeclaration, described, oneTerm, textCell, cellFits, Spec.Captions.NoCellDocuments, Spec.Captions.simpleTable,
    blSample, blDlist, blItem, blCallouts, blDeclare, evDoc, evPara, evInfo, evMeta, AllDoc, AllDocContent, AllOptBlocks, AllOptBlock, AllSects, AllSect, AllBlocks, AllBlock,
    AllContent, AllItems, AllItem, AllEdge, AllRows, AllCells, AllCell]
example : ((render (fun _ => none) 3 blSample).map fun out => decide (100 < out.length)) = some true := by decide +kernel

/-- rendered, and not well bracketed -/
def blWrong (d : Doc) : Bool := match render (fun _ => none) 1 d with
  | some out => Bal.chk out [] != some []
  | none => false

theorem blWrong_spec {d : Doc} (h : blWrong d = true) : ∃ out, render (fun _ => none) 1 d = some out ∧ ¬ Balanced out := by
  unfold blWrong at h
  cases hr : render (fun _ => none) 1 d with
  | none => rw [hr] at h; cases h
  | some out =>
    rw [hr] at h
    refine ⟨out, rfl, fun hb => ?_⟩
    rw [Bal.balanced_iff] at hb
    simp [hb] at h

macro "wellFormed" : tactic => `(tactic| simp [WellFormed, blDlist, blItem, blCallouts, blDeclare, evDoc, evPara, evInfo, AllDoc, AllDocContent, AllOptBlocks, AllOptBlock,
  AllSects, AllSect, AllBlocks, AllBlock, AllContent, AllItems, AllItem, AllEdge, AllRows, AllCells, AllCell, Fits])

/-- A description list inside an item of a horizontal one: the inner list ends the
layout of the outer one. -/
theorem C43_nested_list_violated : WellFormed (evDoc [blDlist .horizontal [blItem [blDlist .plain [blItem []]]]]) ∧
    ∃ out, render (fun _ => none) 1 (evDoc [blDlist .horizontal [blItem [blDlist .plain [blItem []]]]]) = some out ∧ ¬ Balanced out :=
  ⟨by wellFormed, blWrong_spec (by decide +kernel)⟩

/-- A horizontal list inside a glossary: its terms are opened as `dt` and closed as `td`. -/
theorem C43_list_in_glossary_violated : WellFormed (evDoc [blDlist .glossary [blItem [blDlist .horizontal [blItem []]]]]) ∧
    ∃ out, render (fun _ => none) 1 (evDoc [blDlist .glossary [blItem [blDlist .horizontal [blItem []]]]]) = some out ∧ ¬ Balanced out :=
  ⟨by wellFormed, blWrong_spec (by decide +kernel)⟩

/-- An item of a horizontal list with two terms: each term opens a row. -/
theorem C43_two_terms_violated : WellFormed (evDoc [blDlist .horizontal [.desc [evText 'a'] [[evText 'b']] (some (evPara [])) []]]) ∧
    ∃ out, render (fun _ => none) 1 (evDoc [blDlist .horizontal [.desc [evText 'a'] [[evText 'b']] (some (evPara [])) []]]) = some out ∧ ¬ Balanced out :=
  ⟨by wellFormed, blWrong_spec (by decide +kernel)⟩

/-- An item of a horizontal list without description: its row is not closed. -/
theorem C43_no_description_violated : WellFormed (evDoc [blDlist .horizontal [.desc [evText 'a'] [] none []]]) ∧
    ∃ out, render (fun _ => none) 1 (evDoc [blDlist .horizontal [.desc [evText 'a'] [] none []]]) = some out ∧ ¬ Balanced out :=
  ⟨by wellFormed, blWrong_spec (by decide +kernel)⟩

/-- A question without answer: its `li` is not closed. -/
theorem C43_no_answer_violated : WellFormed (evDoc [blDlist .qanda [.desc [evText 'a'] [] none []]]) ∧
    ∃ out, render (fun _ => none) 1 (evDoc [blDlist .qanda [.desc [evText 'a'] [] none []]]) = some out ∧ ¬ Balanced out :=
  ⟨by wellFormed, blWrong_spec (by decide +kernel)⟩

/-- A verse with a citation and no attribution: `</blockquote>` closes its `pre`. -/
theorem C43_verse_violated : WellFormed (evDoc [.mk (evInfo .verse) none none (some [evText 'c']) (.simple [evText 'v'])]) ∧
    ∃ out, render (fun _ => none) 1 (evDoc [.mk (evInfo .verse) none none (some [evText 'c']) (.simple [evText 'v'])]) = some out ∧ ¬ Balanced out :=
  ⟨by wellFormed, blWrong_spec (by decide +kernel)⟩

/-- an embedded document without title, with a preamble and a table of contents in it -/
def blUntitled : Doc :=
  .mk { evMeta with embedded := true } none (some ⟨.preamble, [.mk 1 [evText 's'] []]⟩) none none none (.sections (some [evPara [evText 'p']]) [.mk ⟨1, true⟩ [evText 's'] []])

/-- A table of contents in the preamble of an embedded document without title closes a
`div` that was not opened. -/
theorem C43_preamble_toc_violated : WellFormed blUntitled ∧ ∃ out, render (fun _ => none) 1 blUntitled = some out ∧ ¬ Balanced out :=
  ⟨by simp [blUntitled]; wellFormed, blWrong_spec (by decide +kernel)⟩

/-- Icons switched on inside a callout list: it is opened as `ol` and closed as `table`. -/
theorem C43_icons_violated : WellFormed (evDoc [blCallouts [blDeclare]]) ∧ ∃ out, render (fun _ => none) 1 (evDoc [blCallouts [blDeclare]]) = some out ∧ ¬ Balanced out :=
  ⟨by wellFormed, blWrong_spec (by decide +kernel)⟩

/-- A cell with literal text in a header row: its `div` and `pre` are not closed (the
parser gives the cells of header rows no style, so this takes a tree made otherwise). -/
theorem C43_header_cell_violated : WellFormed (evDoc [.mk (evInfo .table) none none none (.table (some [.literal [evText 'x']]) [] none)]) ∧
    ∃ out, render (fun _ => none) 1 (evDoc [.mk (evInfo .table) none none none (.table (some [.literal [evText 'x']]) [] none)]) = some out ∧ ¬ Balanced out :=
  ⟨by wellFormed, blWrong_spec (by decide +kernel)⟩

/-- a table with a document in a cell -/
def blTable (d : Doc) : Block := .mk (evInfo .table) none none none (.table none [[.asciidoc d]] none)

/-- A document in a cell of a document in a cell: after the inner one the outer one is
taken for a page of its own, whose `body` and `html` are closed. -/
theorem C43_nested_cells_violated : WellFormed (evDoc [blTable (evDoc [blTable (evDoc [])])]) ∧
    ∃ out, render (fun _ => none) 1 (evDoc [blTable (evDoc [blTable (evDoc [])])]) = some out ∧ ¬ Balanced out :=
  ⟨by simp [blTable]; wellFormed, blWrong_spec (by decide +kernel)⟩

end Verif.Props

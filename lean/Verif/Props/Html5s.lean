import Verif.Lemmas.Html5sBalanced
import Verif.Props.Balanced
/-! Property theorems for C72: the output of the semantic HTML backend is balanced. -/
namespace Verif.Props
open Verif.Ast Verif.Eval Verif.Html Verif.Spec.Html

/-- **C72.** For every document tree, with any anchors, the output of the semantic HTML
backend is well bracketed: every opened element is closed in the right order (missing:
the trees that are not `Fits`, for which it is false; see the theorems below). -/
theorem C72_balanced_partial (anchors : Text → Option Anchor) (n : Nat) (d : Doc) (out : List Tok) (hf : Spec.Html5s.Fits d)
    (h : Html5s.render anchors n d = some out) : Balanced out := Html5s.render_balanced anchors n d hf h

/-- a titled block -/
def h5Block (c : Context) (title : Option (List Inline)) (content : Content) : Block := .mk (evInfo c) title none none content
/-- a listing -/
def h5Listing (title : Option (List Inline)) : Block := h5Block .listing title (.simple [evText 'x', .leaf .callout])

/-- A page with a preamble that has a titled paragraph, a table of contents, description
lists nested and without description, a callout list after a listing and a comment, a
verse with citation only, a table with a header, a document in a cell and literal text,
an abstract, an admonition, titles and a footnote. -/
def h5Sample : Doc :=
  .mk evMeta (some [evText 't']) (some ⟨.preamble, [.mk 1 [evText 's'] []]⟩) (some [evText 'h']) none (some [evText 'f'])
    (.sections (some [h5Block .paragraph (some [evText 'l']) (.simple [evText 'p', .footnote none (some [evText 'n'])])])
      [.mk ⟨1, true⟩ [evText 's'] [
        h5Block .orderedList (some [evText 'l']) (.list .ordered [.plain [evText 'a'] [blDlist .horizontal [blItem [evPara [evText 'b']]]], .plain [evText 'c'] []]),
        blDlist .qanda [.desc [evText 'q'] [[evText 'r']] none []],
        h5Listing none, .mk (evInfo .comment) none none none .empty, blCallouts [h5Listing (some [evText 'l'])],
        .mk (evInfo .verse) none none (some [evText 'c']) (.simple [evText 'v']),
        h5Block .table (some [evText 'l'])
          (.table (some [.paragraphs .default [[evText 'x']], .paragraphs .header []]) [[.paragraphs .strong [[evText 'x']], .asciidoc (evDoc [evPara [evText 'y']])], [.literal [evText 'z'], .literal []]] none),
        h5Block .admonition (some [evText 'l']) (.compound [evPara [evText 'o']]),
        .mk { evInfo .openBlock with isAbstract := true } none none none (.compound [evPara [evText 'o']])]])

example : Spec.Html5s.Fits h5Sample := by
  simp [Spec.Html5s.Fits, h5Sample, h5Block, h5Listing, blDlist, blItem, blCallouts, evDoc, evPara, evInfo, evMeta, Spec.Html5s.fitDoc, Spec.Html5s.fitDocContent,
    Spec.Html5s.fitBlocks, Spec.Html5s.fitBlock, Spec.Html5s.fitContent, Spec.Html5s.fitSects, Spec.Html5s.fitSect, Spec.Html5s.fitItems, Spec.Html5s.fitItem,
    Spec.Html5s.fitEdge, Spec.Html5s.fitRows, Spec.Html5s.fitCells, Spec.Html5s.fitCell, Spec.Html5s.endsDiv, Spec.Html5s.showsTitle]
example : ((Html5s.render (fun _ => none) 3 h5Sample).map fun out => decide (100 < out.length)) = some true := by decide +kernel

/-- rendered, and not well bracketed -/
def h5Wrong (d : Doc) : Bool := match Html5s.render (fun _ => none) 1 d with
  | some out => Bal.chk out [] != some []
  | none => false

theorem h5Wrong_spec {d : Doc} (h : h5Wrong d = true) : ∃ out, Html5s.render (fun _ => none) 1 d = some out ∧ ¬ Balanced out := by
  unfold h5Wrong at h
  cases hr : Html5s.render (fun _ => none) 1 d with
  | none => rw [hr] at h; cases h
  | some out =>
    rw [hr] at h
    refine ⟨out, rfl, fun hb => ?_⟩
    rw [Bal.balanced_iff] at hb
    simp [hb] at h

macro "wellFormed5" : tactic => `(tactic| (simp [h5Block, h5Listing, blTable, Spec.Eval.WellFormed, blDlist, blItem, blCallouts, blDeclare, evDoc, evPara, evInfo, Spec.Eval.AllDoc, Spec.Eval.AllDocContent,
  Spec.Eval.AllOptBlocks, Spec.Eval.AllOptBlock, Spec.Eval.AllSects, Spec.Eval.AllSect, Spec.Eval.AllBlocks, Spec.Eval.AllBlock, Spec.Eval.AllContent, Spec.Eval.AllItems, Spec.Eval.AllItem,
  Spec.Eval.AllEdge, Spec.Eval.AllRows, Spec.Eval.AllCells, Spec.Eval.AllCell, Spec.Eval.Fits]))

/-- A verse with a title is opened as `div` and closed as `section`. -/
theorem C72_verse_violated :
    ∃ d, d = evDoc [h5Block .verse (some [evText 'l']) (.simple [evText 'v'])] ∧ Spec.Eval.WellFormed d ∧
      ∃ out, Html5s.render (fun _ => none) 1 d = some out ∧ ¬ Balanced out :=
  ⟨_, rfl, by wellFormed5, h5Wrong_spec (by decide +kernel)⟩

/-- A callout list after a listing with a title: the last six bytes of `</figure>` are cut off. -/
theorem C72_callouts_after_figure_violated :
    ∃ d, d = evDoc [h5Listing (some [evText 'l']), blCallouts []] ∧ Spec.Eval.WellFormed d ∧
      ∃ out, Html5s.render (fun _ => none) 1 d = some out ∧ ¬ Balanced out :=
  ⟨_, rfl, by wellFormed5, h5Wrong_spec (by decide +kernel)⟩

/-- A callout list after a paragraph: more than `</p>` is cut off. -/
theorem C72_callouts_after_paragraph_violated :
    ∃ d, d = evDoc [h5Listing none, evPara [evText 'p'], blCallouts []] ∧ Spec.Eval.WellFormed d ∧
      ∃ out, Html5s.render (fun _ => none) 1 d = some out ∧ ¬ Balanced out :=
  ⟨_, rfl, by wellFormed5, h5Wrong_spec (by decide +kernel)⟩

/-- An emphasised cell in a header row: its `em` is not closed (the parser gives the
cells of header rows no style, so this takes a tree made otherwise). -/
theorem C72_header_cell_violated :
    ∃ d, d = evDoc [h5Block .table none (.table (some [.paragraphs .emphasis [[evText 'x']]]) [] none)] ∧ Spec.Eval.WellFormed d ∧
      ∃ out, Html5s.render (fun _ => none) 1 d = some out ∧ ¬ Balanced out :=
  ⟨_, rfl, by wellFormed5, h5Wrong_spec (by decide +kernel)⟩

/-- a document with a preamble in which a thematic break has a title -/
def h5Break : Doc :=
  .mk evMeta (some [evText 't']) none none none none (.sections (some [h5Block .thematicBreak (some [evText 'l']) .empty]) [.mk ⟨1, true⟩ [evText 's'] []])

/-- A title that is not shown, in a preamble: at the end of the preamble it is taken for
the table of contents, and the two buffers are exchanged. -/
theorem C72_unused_title_violated : Spec.Eval.WellFormed h5Break ∧ ∃ out, Html5s.render (fun _ => none) 1 h5Break = some out ∧ ¬ Balanced out :=
  ⟨by simp [h5Break]; wellFormed5, h5Wrong_spec (by decide +kernel)⟩

/-- A document in a cell of a document in a cell: after the inner one the outer one is
taken for a page of its own, whose `body` and `html` are closed. -/
theorem C72_nested_cells_violated :
    ∃ d, d = evDoc [blTable (evDoc [blTable (evDoc [])])] ∧ Spec.Eval.WellFormed d ∧
      ∃ out, Html5s.render (fun _ => none) 1 d = some out ∧ ¬ Balanced out :=
  ⟨_, rfl, by wellFormed5, h5Wrong_spec (by decide +kernel)⟩

end Verif.Props

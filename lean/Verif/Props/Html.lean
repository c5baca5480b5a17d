import Verif.Lemmas.HtmlXref
import Verif.Lemmas.HtmlCaptions
import Verif.Lemmas.EvalAll
import Verif.Props.Eval
/-! Property theorems about the HTML backend: C45 (links of cross references are
not nested), C52 (captions are numbered consecutively). -/
namespace Verif.Props
open Verif.Ast Verif.Eval Verif.Html Verif.Spec.Eval Verif.Spec.Html Verif.Spec.Captions

/-! ### C45 -/

/-- **C45.** In the output for any document, with any anchors, wherever the link of
a cross reference is opened, all such links opened before are closed; and at the end
all of them are. -/
theorem C45_xref_links_not_nested (anchors : Text → Option Anchor) (n : Nat) (d : Doc) (out : List Tok)
    (h : render anchors n d = some out) :
    NoNestedXref out ∧ out.count (.opening .xrefA) = out.count (.closing .xrefA) :=
  ⟨scan_noNested (render_flat h), by simpa using scan_count (render_flat h)⟩

/-- an anchor whose reference text has a cross reference to `b` and a link; `b` has
plain reference text -/
def htAnchors : Text → Option Anchor
  | ['a'] => some ⟨some [.xref ['b'] none, .link (some [evText 'l'])], [], false⟩
  | ['b'] => some ⟨some [evText 't'], [], false⟩
  | _ => none

/-- Two references, the text of the first one has a reference itself: two links. -/
example : (render htAnchors 9 (evDoc [evPara [.xref ['a'] none, .xref ['b'] none]])).map (·.count (.opening .xrefA)) = some 2 := by
  decide +kernel

/-- C45. Links disappear in the table of contents only: as soon as it ends, the next
link is an element again, whatever was shown before. -/
theorem C45_links_after_the_toc (pos : TocPosition) (target : Bool) (s : State) :
    ∃ s1 s2 s3, step (.exit (.toc pos)) s = some s1 ∧ step (.enter (.link false target)) s1 = some s2 ∧ step (.exit (.link false target)) s2 = some s3 ∧
      s3.cur.html = s1.cur.html ++ [.opening .a, .closing .a] := by
  refine ⟨_, _, _, rfl, rfl, rfl, ?_⟩
  cases pos <;> simp [State.pushIf, State.push, Frame.push]

/-- The links of other macros can be nested in the link of a cross reference: after
an inner cross reference the evaluator no longer tells the backend that it is inside
one (so the title of C45 does not hold for all links). -/
theorem C45_other_links_violated : ∃ (anchors : Text → Option Anchor) (n : Nat) (d : Doc) (out pre post : List Tok),
    render anchors n d = some out ∧ out = pre ++ .opening .a :: post ∧
    pre.count (.opening .xrefA) = pre.count (.closing .xrefA) + 1 := by
  let out := (render htAnchors 9 (evDoc [evPara [.xref ['a'] none]])).getD []
  refine ⟨htAnchors, 9, evDoc [evPara [.xref ['a'] none]], out, out.takeWhile (· ≠ .opening .a), (out.dropWhile (· ≠ .opening .a)).tail, ?_, ?_, ?_⟩ <;> decide +kernel

/-! ### C52 -/

/-- **C52.** The captions in the output, in order, are: for each block in document
order that shows a title, has no caption of its own and whose kind has a label at
that point of the document, that label and the next number of the kind, starting
with 1 (missing: documents with AsciiDoc table cells, see `C52_cells_violated`). -/
theorem C52_captions_in_order_partial (anchors : Text → Option Anchor) (n : Nat) (attrs : Meta) (title : Option (List Inline)) (toc : Option Toc)
    (head header footer : Option (List Inline)) (content : DocContent) (out : List Tok)
    (hw : WellFormed (.mk attrs title toc head header footer content)) (hc : NoCellDocuments (.mk attrs title toc head header footer content))
    (h : render anchors n (.mk attrs title toc head header footer content) = some out) :
    captionsIn out = captions (labels attrs) (fun _ => 0) (docBlocks (.mk attrs title toc head header footer content)) := by
  unfold render at h
  cases hr : run (trace (htmlEnv anchors) n (.mk attrs title toc head header footer content)) {} with
  | none => rw [hr] at h; cases h
  | some s =>
    rw [hr] at h; cases h
    refine Cap.visit_PC (inlines_I _ n) _ _ _ _ _ _ _ _ rfl (AllDoc.and _ hw hc) {} s ⟨rfl, by simp⟩ rfl ?_ hr
    funext k; cases k <;> rfl

theorem captions_consecutive (k : Kind) : ∀ (bs : List Block) (ls : Kind → Option Text) (before : Kind → Nat),
    ((captions ls before bs).filter (·.1 = k)).map (·.2.2) = List.range' (before k + 1) ((captions ls before bs).filter (·.1 = k)).length
  | [], _, _ => rfl
  | b :: bs, ls, before => by
    simp only [captions]
    cases declared b with
    | some m => exact captions_consecutive k bs _ _
    | none =>
      cases captionOf ls b with
      | none => exact captions_consecutive k bs _ _
      | some kl =>
        obtain ⟨j, l⟩ := kl
        have ih := captions_consecutive k bs ls (fun i => if i = j then before i + 1 else before i)
        by_cases hj : j = k
        · subst hj
          simp [ih, List.range'_succ]
        · simp [hj, ih, Ne.symm hj]

/-- **C52.** The captions of each kind are numbered 1, 2, 3, … in the order in which
they are printed. -/
theorem C52_captions_consecutive_partial (anchors : Text → Option Anchor) (n : Nat) (d : Doc) (out : List Tok)
    (hw : WellFormed d) (hc : NoCellDocuments d) (h : render anchors n d = some out) (k : Kind) :
    ((captionsIn out).filter (·.1 = k)).map (·.2.2) = List.range' 1 ((captionsIn out).filter (·.1 = k)).length := by
  cases d with
  | mk a t c h1 h2 h3 x =>
    rw [C52_captions_in_order_partial _ _ _ _ _ _ _ _ _ _ hw hc h]
    exact captions_consecutive k _ _ _

/-- a titled example block -/
def htExample (caption : Option Text) (bs : List Block) : Block :=
  .mk { evInfo .example with caption } (some [evText 't']) none none (.compound bs)
/-- a titled table -/
def htTable (rows : List (List Cell)) : Block := .mk (evInfo .table) (some [evText 't']) none none (.table none rows none)
/-- a document with nested captioned blocks, one of which has its own caption -/
def htCaptioned : Doc := evDoc [htExample none [htTable [], htExample (some ['o']) [], htExample none []], evPara [], htTable [[.literal []]],
  .mk (evInfo .image) none none none (.image (some ['i']) false)]

example : WellFormed htCaptioned ∧ NoCellDocuments htCaptioned ∧
    (render htAnchors 9 htCaptioned).map (fun out => (captionsIn out).map fun c => (c.1, c.2.2)) =
      some [(.example, 1), (.table, 1), (.example, 2), (.table, 2), (.figure, 1)] := by
  refine ⟨?_, ?_, by decide +kernel⟩
  · simp [WellFormed, htCaptioned, evDoc, AllDoc, AllDocContent, AllBlocks, AllBlock, AllContent, AllEdge, AllRows, AllCells, AllCell, htExample, htTable, evPara, evInfo, Fits]
  · simp [NoCellDocuments, simpleTable, simpleCell, htCaptioned, evDoc, AllDoc, AllDocContent, AllBlocks, AllBlock, AllContent, AllEdge, AllRows, AllCells, AllCell, htExample, htTable, evPara, evInfo]

/-- Inside an AsciiDoc table cell the numbers start again with 1: a table with a
title inside a titled table is `Table 1` as well. -/
theorem C52_cells_violated : ∃ (d : Doc) (out : List Tok), WellFormed d ∧ render htAnchors 9 d = some out ∧
    ((captionsIn out).filter (·.1 = .table)).map (·.2.2) = [1, 1] := by
  refine ⟨evDoc [htTable [[.asciidoc (.mk { evMeta with embedded := true } none none none none none (.blocks [htTable []]))]]], _, ?_, rfl, ?_⟩
  · simp [WellFormed, evDoc, AllDoc, AllDocContent, AllBlocks, AllBlock, AllContent, AllEdge, AllRows, AllCells, AllCell, htTable, evInfo, Fits]
  · decide +kernel

end Verif.Props

import Verif.Lemmas.NotesTree
import Verif.Props.Html
/-! Property theorems about footnotes and buffered text: C48 (footnotes are numbered in
order, references show the number of the note they refer to), C49 (buffered text is
placed where it belongs, and nothing is lost). -/
namespace Verif.Props
open Verif.Ast Verif.Eval Verif.Html Verif.Spec.Eval Verif.Spec.Html Verif.Spec.Captions Verif.Spec.Notes

/-! ### C49 -/

theorem notes_ok {d : Doc} (h1 : WellFormed d) (h2 : PlacesTitles d) : AllDoc (Notes.ok {}) d := by
  refine AllDoc.imp (fun b h => ?_) d (AllDoc.and _ h1 h2)
  exact ⟨h.1, h.2, fun h => Bool.noConfusion h, fun h => Bool.noConfusion h⟩

/-- **C49.** What a reader sees of the output for a document: the texts of the document
in document order, each in its place, with the numbers of the footnotes where they are
used; then the list of the footnotes with their texts; then the texts of the footer.
Nothing is lost, nothing is shown twice. The texts are those the evaluator makes of
each text of the document, following cross references (missing: titles where none is
shown, footnotes in footnotes, see the theorems named `C49_…_violated`). -/
theorem C49_everything_in_its_place_partial (anchors : Text → Option Anchor) (n : Nat) (d : Doc) (out : List Tok)
    (h1 : WellFormed d) (h2 : PlacesTitles d)
    (h3 : ∀ attrs title toc head header footer content, d = .mk attrs title toc head header footer content →
      attrs.inlineDoctype = false ∧ (titleShown attrs = false → ∀ ns, title = some ns →
        ∀ id, .enter (.footnote id) ∉ inlines (htmlEnv anchors) n ns ∧ .exit (.footnote id) ∉ inlines (htmlEnv anchors) n ns))
    (h4 : ∀ ns ∈ bodyTexts d ++ footTexts d, flat false (inlines (htmlEnv anchors) n ns) = true)
    (h : render anchors n d = some out) :
    shown out =
      (layout [] ((bodyTexts d).flatMap (fun ns => atoms none (inlines (htmlEnv anchors) n ns)))).1 ++
      noteList 1 (layout [] ((bodyTexts d).flatMap (fun ns => atoms none (inlines (htmlEnv anchors) n ns)))).2 ++
      (layout (layout [] ((bodyTexts d).flatMap (fun ns => atoms none (inlines (htmlEnv anchors) n ns)))).2
        ((footTexts d).flatMap (fun ns => atoms none (inlines (htmlEnv anchors) n ns)))).1 := by
  unfold render at h
  cases hr : run (trace (htmlEnv anchors) n d) {} with
  | none => rw [hr] at h; cases h
  | some s =>
    rw [hr] at h; cases h
    refine Notes.visit_top (inlines_I _ n) d ?_ (notes_ok h1 h2) h4 s hr
    intro attrs title toc head header footer content e
    obtain ⟨h5, h6⟩ := h3 attrs title toc head header footer content e
    refine ⟨h5, fun ht ns hn => ?_⟩
    have h7 := h6 ht ns hn
    rw [Notes.noFoot, List.all_eq_true]
    intro e he
    split
    · exact absurd he (h7 _).1
    · exact absurd he (h7 _).2
    · rfl

theorem flatMap_congr' {α β : Type} {f g : α → List β} : ∀ {xs : List α}, (∀ x ∈ xs, f x = g x) → xs.flatMap f = xs.flatMap g
  | [], _ => rfl
  | x :: xs, h => by
    rw [List.flatMap_cons, List.flatMap_cons, h x (.head _), flatMap_congr' (fun y hy => h y (.tail _ hy))]

/-- **C49.** The same for documents without cross references, in terms of the document
alone. -/
theorem C49_texts_in_their_place_partial (anchors : Text → Option Anchor) (n : Nat) (d : Doc) (out : List Tok)
    (hd : Plain d) (h : render anchors n d = some out) :
    shown out = (layout [] (bodyAtoms d)).1 ++ noteList 1 (layout [] (bodyAtoms d)).2 ++ (layout (layout [] (bodyAtoms d)).2 (footAtoms d)).1 := by
  have hr : ∀ ns ∈ bodyTexts d ++ footTexts d, atoms none (inlines (htmlEnv anchors) n ns) = nodesAtoms ns := fun ns hn =>
    (Notes.inlines_reads anchors n ns (hd.noXrefs ns hn)).atm (hd.flat ns hn)
  have hb : bodyAtoms d = (bodyTexts d).flatMap (fun ns => atoms none (inlines (htmlEnv anchors) n ns)) :=
    flatMap_congr' (fun ns hn => (hr ns (List.mem_append_left _ hn)).symm)
  have hf : footAtoms d = (footTexts d).flatMap (fun ns => atoms none (inlines (htmlEnv anchors) n ns)) :=
    flatMap_congr' (fun ns hn => (hr ns (List.mem_append_right _ hn)).symm)
  rw [hb, hf]
  refine C49_everything_in_its_place_partial anchors n d out hd.formed hd.places ?_ ?_ h
  · intro attrs title toc head header footer content e
    obtain ⟨h5, h6⟩ := hd.standalone attrs title toc head header footer content e
    refine ⟨h5, fun ht ns hn id => ?_⟩
    obtain ⟨h7, h8⟩ := h6 ht ns hn
    have h9 := (Notes.inlines_reads anchors n ns h7).foot
    rw [h8, Notes.noFoot, List.all_eq_true] at h9
    exact ⟨fun hm => Bool.noConfusion (h9 _ hm), fun hm => Bool.noConfusion (h9 _ hm)⟩
  · intro ns hn
    rw [(Notes.inlines_reads anchors n ns (hd.noXrefs ns hn)).flt, hd.flat ns hn]

/-! ### C48 -/

/-- **C48.** If the footer has no footnotes: new footnotes get the numbers 1, 2, … in
document order; the list of notes defines exactly these numbers, each once, in order;
each use of a footnote shows a number; and two uses show the same number if and only if
they have the same name (missing: the documents excluded in C49, and footnotes in the
footer, see `C48_footer_violated`). -/
theorem C48_numbers_partial (anchors : Text → Option Anchor) (n : Nat) (d : Doc) (out : List Tok)
    (hd : Plain d) (hf : namesIn (footAtoms d) = []) (h : render anchors n d = some out) :
    ∃ m, marksIn (shown out) = List.range' 1 m ∧ definesIn (shown out) = List.range' 1 m ∧
      (numbersIn (shown out)).length = (namesIn (bodyAtoms d)).length ∧
      (∀ k ∈ numbersIn (shown out), 1 ≤ k ∧ k ≤ m) ∧
      ∀ (i j : Nat) (k l : Nat) (x y : Option Text), i < j → (numbersIn (shown out))[i]? = some k → (numbersIn (shown out))[j]? = some l →
        (namesIn (bodyAtoms d))[i]? = some x → (namesIn (bodyAtoms d))[j]? = some y →
        (k = l ↔ ∃ name, x = some name ∧ y = some name) := by
  rw [C49_texts_in_their_place_partial anchors n d out hd h]
  obtain ⟨new, h1, h2, h3, h4, h5, h6, h7, h8, h9⟩ := Notes.layout_facts (bodyAtoms d) [] Notes.good_nil
  obtain ⟨g, f1, f2, f3, f4, f5, f6, -⟩ := Notes.layout_facts (footAtoms d) _ h2
  have hp : Notes.pairs ([] ++ new) (footAtoms d) = [] := by
    rw [hf] at f6; exact List.map_eq_nil_iff.1 f6.symm
  have hg : marksIn (layout ([] ++ new) (footAtoms d)).1 = [] ∧ numbersIn (layout ([] ++ new) (footAtoms d)).1 = [] := by
    refine ⟨?_, by rw [f5, hp]; rfl⟩
    have hsub : ∀ xs : List Shown, numbersIn xs = [] → marksIn xs = [] := by
      intro xs
      induction xs with
      | nil => intro _; rfl
      | cons x xs ih => cases x <;> simp [numbersIn, marksIn] <;> exact ih
    exact hsub _ (by rw [f5, hp]; rfl)
  obtain ⟨n1, n2, n3⟩ := Notes.noteList_facts ([] ++ new) 1 h2.1
  rw [h1]
  simp only [List.nil_append] at hg n1 n2 n3 f4
  simp only [Notes.marksIn_append, Notes.numbersIn_append, Notes.definesIn_append, n1, n2, n3, hg.1, hg.2, f4, h3, h4, h5, h6, List.append_nil, List.nil_append,
    List.length_nil, Nat.zero_add, List.length_map]
  refine ⟨new.length, rfl, rfl, trivial, ?_, ?_⟩
  · intro k hk
    obtain ⟨p, hp, rfl⟩ := List.mem_map.1 hk
    obtain ⟨e1, x, e2, -⟩ := h7 p hp
    have := (List.getElem?_eq_some_iff.1 e2).1
    simp at this
    omega
  · intro i j k l x y hij hi hj hx hy
    rw [List.getElem?_map, Option.map_eq_some_iff] at hi hj hx hy
    obtain ⟨p, hp, rfl⟩ := hi
    obtain ⟨q, hq, rfl⟩ := hj
    obtain ⟨p', hp', rfl⟩ := hx
    obtain ⟨q', hq', rfl⟩ := hy
    rw [hp] at hp'; cases hp'
    rw [hq] at hq'; cases hq'
    rw [List.pairwise_iff_getElem] at h9
    obtain ⟨a1, a2⟩ := List.getElem?_eq_some_iff.1 hp
    obtain ⟨b1, b2⟩ := List.getElem?_eq_some_iff.1 hq
    have := h9 i j a1 b1 hij
    rwa [a2, b2] at this

/-! ### Examples -/

/-- a footnote with a text -/
def ntNote (id : Option Text) (c : Char) : Inline := .footnote id (some [evText c])

/-- A document with a titled example, a list, an AsciiDoc cell, and footnotes, two of
them with the same name. -/
def ntDoc : Doc := .mk evMeta (some [evText 'T']) none none none (some [evText 'F']) (.blocks [
  evPara [evText 'a', ntNote none 'x', .wrap .bold [evText 'b', ntNote (some ['n']) 'y']],
  .mk (evInfo .example) (some [evText 't']) none none (.compound [evPara [.footnote (some ['n']) none, evText 'c']]),
  .mk (evInfo .unorderedList) none none none (.list .unordered [.plain [evText 'd', ntNote none 'z'] []]),
  .mk (evInfo .table) none none none (.table none [[.paragraphs .default [[evText 'e']], .asciidoc (evDoc [evPara [evText 'f']])]] none)])

theorem ntDoc_plain : Plain ntDoc := by
  refine ⟨?_, ?_, ?_, ?_, ?_⟩
  · simp [WellFormed, ntDoc, evPara, evDoc, AllDoc, AllDocContent, AllBlocks, AllBlock, AllContent, AllItems, AllItem, AllEdge, AllRows, AllCells, AllCell, Fits, evInfo]
  · simp [PlacesTitles, placesTitles, Spec.Notes.showsTitle, cellOk, plainDoc, NoCellDocuments, simpleTable, ntDoc, evPara, evDoc, AllDoc, AllDocContent, AllBlocks, AllBlock, AllContent,
      AllItems, AllItem, AllEdge, AllRows, AllCells, AllCell, evInfo, evMeta]
  · intro attrs title toc head header footer content e
    injection e with e1
    subst e1
    refine ⟨rfl, fun h => ?_⟩
    exact Bool.noConfusion h
  · have e : bodyTexts ntDoc ++ footTexts ntDoc = [[evText 'T'], [evText 'a', ntNote none 'x', .wrap .bold [evText 'b', ntNote (some ['n']) 'y']], [evText 't'],
      [.footnote (some ['n']) none, evText 'c'], [evText 'd', ntNote none 'z'], [evText 'e'], [evText 'f'], [evText 'F']] := rfl
    rw [e]
    simp [NoXrefs, NoXref, NoXrefO, evText, ntNote]
  · decide +kernel

example : namesIn (footAtoms ntDoc) = [] ∧ namesIn (bodyAtoms ntDoc) = [none, some ['n'], some ['n'], none] := by decide +kernel

/-- its output: texts in order, the second use of `n` shows 2, three notes at the end,
then the footer -/
example : (render htAnchors 9 ntDoc).map shown = some [.text ['T'], .text ['a'], .mark 1, .text ['b'], .mark 2, .text ['t'], .again 2, .text ['c'], .text ['d'], .mark 3,
    .text ['e'], .text ['f'], .define 1, .text ['x'], .define 2, .text ['y'], .define 3, .text ['z'], .text ['F']] := by
  decide +kernel

/-- a document with a cross reference to a text that has one itself -/
example : (render htAnchors 9 (evDoc [evPara [.xref ['a'] none, ntNote none 'x']])).map shown =
    some [.text ['l'], .mark 1, .define 1, .text ['x']] := by decide +kernel

/-! ### Where the properties fail -/

/-- **C48 fails** for a reference to a footnote that is defined later: the reference
becomes a footnote without text, and the text of the definition is lost. -/
theorem C48_forward_reference_violated :
    (render htAnchors 9 (evDoc [evPara [.footnote (some ['n']) none, evText 'a', ntNote (some ['n']) 'x']])).map shown =
      some [.mark 1, .text ['a'], .again 1, .define 1] := by decide +kernel

/-- **C48 fails** for a footnote in a footer: its number is shown, but it is not in
the list of notes. -/
theorem C48_footer_violated :
    (render htAnchors 9 (.mk evMeta none none none none (some [ntNote none 'x']) (.blocks [evPara [ntNote none 'y']]))).map shown =
      some [.mark 1, .define 1, .text ['y'], .mark 2] := by decide +kernel

/-- **C48 fails** for a footnote in a heading that is listed in a table of contents: it
gets two numbers and two notes. -/
theorem C48_heading_violated :
    (render htAnchors 9 (.mk evMeta none (some ⟨.auto, [.mk 1 [ntNote none 'x'] []]⟩) none none none
      (.sections none [.mk ⟨1, true⟩ [ntNote none 'x'] []]))).map shown =
      some [.mark 1, .mark 2, .define 1, .text ['x'], .define 2, .text ['x']] := by decide +kernel

/-- **C48 fails** for a footnote in a document title that is not shown: the program
panics. -/
theorem C48_hidden_title_violated :
    render htAnchors 9 (.mk { evMeta with showTitle := false } (some [ntNote none 'x']) none none none none (.blocks [])) = none := by decide +kernel

/-- a paragraph with a title -/
def ntTitled (title : List Inline) : Block := .mk (evInfo .paragraph) (some title) none none (.simple [evText 'a'])

/-- **C49 fails** for a footnote in the title of a block: the program panics, the
buffer is in use. -/
theorem C49_footnote_in_title_violated : render htAnchors 9 (evDoc [ntTitled [ntNote none 'x']]) = none := by decide +kernel

/-- **C49 fails** for a thematic break with a title: the title is lost, and the next
block with a title panics. -/
theorem C49_break_title_violated :
    (render htAnchors 9 (evDoc [.mk (evInfo .thematicBreak) (some [evText 't']) none none .empty])).map shown = some [] ∧
    render htAnchors 9 (evDoc [.mk (evInfo .thematicBreak) (some [evText 't']) none none .empty, ntTitled [evText 'u']]) = none := by decide +kernel

/-- **C49 fails** for a footnote in a footnote: panic. -/
theorem C49_nested_footnote_violated : render htAnchors 9 (evDoc [evPara [evText 'a', .footnote none (some [evText 'x', ntNote none 'y'])]]) = none := by decide +kernel

end Verif.Props

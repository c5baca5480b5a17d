import Verif.Lemmas.Eval
import Verif.Lemmas.EvalXref
/-! Property theorems about the evaluator: the calls made on a backend.
C42 (proper nesting), C44 (cross references terminate). -/
namespace Verif.Props
open Verif.Ast Verif.Eval Verif.Spec.Eval

/-! A small library of trees for the examples. -/

/-- attributes of an ordinary standalone article -/
def evMeta : Meta where
  embedded := false
  inlineDoctype := false
  noheader := false
  nofooter := false
  showTitle := true
  icons := .text
  sectanchors := false
  sectlinks := false
  sourceLanguage := false
  tableCaption := some ['T', 'a', 'b', 'l', 'e']
  figureCaption := some ['F', 'i', 'g', 'u', 'r', 'e']
  exampleCaption := some ['E', 'x', 'a', 'm', 'p', 'l', 'e']
  listingCaption := none

/-- a block of a context without special attributes -/
def evInfo (c : Context) : BlockInfo where
  context := c
  hasTitle := false
  caption := none
  collapsible := false
  isAbstract := false
  dlist := .plain
  isSource := false

def evText (c : Char) : Inline := .leaf (.text [c])
def evPara (ns : List Inline) : Block := .mk (evInfo .paragraph) none none none (.simple ns)
def evDoc (bs : List Block) : Doc := .mk evMeta none none none none none (.blocks bs)

/-- no anchors; like the HTML backend, visible index terms are printed and
concealed ones are not -/
def evEnv : Env := ⟨fun _ => none, true, false⟩

/-- A document with a titled section, a list, a table with a document in a cell,
a quote with attribution, and a table of contents. -/
def evSample : Doc :=
  .mk evMeta (some [evText 't']) (some ⟨.preamble, [.mk 1 [evText 's'] []]⟩) (some [evText 'h']) none none
    (.sections (some [evPara [evText 'p']])
      [.mk ⟨1, true⟩ [evText 's'] [
        .mk (evInfo .unorderedList) (some [evText 'l']) none none (.list .unordered [.plain [evText 'a'] [evPara [evText 'b']], .plain [evText 'c'] []]),
        .mk (evInfo .descriptionList) none none none (.list .description [.desc [evText 'k'] [] (some (evPara [evText 'v'])) []]),
        .mk (evInfo .table) none none none (.table none [[.paragraphs .default [[evText 'x']], .asciidoc (evDoc [evPara [evText 'y']])]] none),
        .mk (evInfo .blockQuote) none (some [evText 'w']) none (.compound [evPara [.wrap .bold [evText 'q']]])]])

/-! ### C42 -/

/-- **C42.** For every well-formed document, every backend and every run that
comes to an end, the calls made are properly nested once the calls of
`enter_visible_index_term` are left out (missing: the code never makes the
matching `exit_visible_index_term` call, see `C42_nesting_violated`). -/
theorem C42_properly_nested_partial (env : Env) (n : Nat) (d : Doc) (hw : WellFormed d) (hb : .bound ∉ trace env n d) :
    Nested ((trace env n d).filter (fun e => e ≠ .enter .visibleTerm)) := by
  have hp : .panic ∉ trace env n d :=
    (visit_P (inl := inlines env n) (inl' := inlines env n) (fun ns => ⟨inlines_panic env n ns, fun _ => rfl⟩) d hw).2.1
  have h : Nested (clean (trace env n d)) := trace_N env n d
  have he : clean (trace env n d) = (trace env n d).filter (fun e => e ≠ .enter .visibleTerm) := by
    refine List.filter_congr fun e he => ?_
    have h1 : e ≠ .panic := fun h => hp (h ▸ he)
    have h2 : e ≠ .bound := fun h => hb (h ▸ he)
    simp [h1, h2]
  rwa [he] at h

/-- **C42.** If no visible index term is met, all calls are properly nested. -/
theorem C42_properly_nested_without_visible_terms (env : Env) (n : Nat) (d : Doc) (hw : WellFormed d) (hb : .bound ∉ trace env n d)
    (hv : .enter .visibleTerm ∉ trace env n d) : Nested (trace env n d) := by
  have h := C42_properly_nested_partial env n d hw hb
  rwa [List.filter_eq_self.mpr (fun e he => by simp; rintro rfl; exact hv he)] at h

example : WellFormed evSample ∧ .bound ∉ trace evEnv 0 evSample ∧ .enter .visibleTerm ∉ trace evEnv 0 evSample := by
  refine ⟨?_, ?_, ?_⟩
  · simp [WellFormed, evSample, evPara, evDoc, AllDoc, AllDocContent, AllOptBlocks, AllBlocks, AllBlock, AllContent, AllSects, AllSect, AllItems, AllItem,
      AllOptBlock, AllEdge, AllRows, AllCells, AllCell, Fits, evInfo]
  · decide +kernel
  · decide +kernel

/-- the number of `enter` calls in a properly nested sequence is the number of
`exit` calls -/
theorem nested_count {evs : List Ev} (h : Nested evs) (c : Call) : evs.count (.enter c) = evs.count (.exit c) := by
  induction h with
  | nil => rfl
  | visit v => simp
  | pair c' _ ih =>
    simp only [List.count_cons, List.count_append, List.count_nil]
    by_cases hc : c' = c
    · subst hc; simp [ih]
    · simp [hc, ih]
  | append _ _ ih1 ih2 => simp [List.count_append, ih1, ih2]

/-- **C42 fails** for a paragraph with a visible index term `((x))`: its `enter`
call has no `exit` call. -/
theorem C42_nesting_violated :
    WellFormed (evDoc [evPara [.visibleTerm [evText 'x']]]) ∧ .bound ∉ trace evEnv 0 (evDoc [evPara [.visibleTerm [evText 'x']]]) ∧
    ¬ Nested (trace evEnv 0 (evDoc [evPara [.visibleTerm [evText 'x']]])) := by
  refine ⟨?_, by decide +kernel, fun h => ?_⟩
  · simp [WellFormed, evPara, evDoc, AllDoc, AllDocContent, AllBlocks, AllBlock, AllContent, Fits, evInfo]
  · have := nested_count h .visibleTerm
    revert this
    decide +kernel

/-- **C42.** No call of a well-formed document panics. -/
theorem C42_no_panic (env : Env) (n : Nat) (d : Doc) (hw : WellFormed d) : .panic ∉ trace env n d :=
  (visit_P (inl := inlines env n) (inl' := inlines env n) (fun ns => ⟨inlines_panic env n ns, fun _ => rfl⟩) d hw).2.1

/-- **C42.** The texts of a well-formed document are printed in document order: the
printing calls made for the document are those made for its texts, one text after
the other. -/
theorem C42_texts_in_document_order (env : Env) (n : Nat) (d : Doc) (hw : WellFormed d) :
    leaves (trace env n d) = (docTexts d).flatMap (fun ns => leaves (inlines env n ns)) :=
  (visit_P (inl := inlines env n) (inl' := inlines env n) (fun ns => ⟨inlines_panic env n ns, fun _ => rfl⟩) d hw).1

/-- **C42.** If the document contains no cross references, its characters are
printed in document order, each once. -/
theorem C42_leaves_in_document_order (env : Env) (n : Nat) (d : Doc) (hw : WellFormed d) (hx : ∀ ns ∈ docTexts d, NoXrefs ns) :
    leaves (trace env n d) = (docTexts d).flatMap (nodesLeaves env.entersVisible env.entersConcealed) := by
  rw [C42_texts_in_document_order env n d hw]
  have : ∀ ts : List (List Inline), (∀ ns ∈ ts, NoXrefs ns) →
      ts.flatMap (fun ns => leaves (inlines env n ns)) = ts.flatMap (nodesLeaves env.entersVisible env.entersConcealed) := by
    intro ts
    induction ts with
    | nil => intro _; rfl
    | cons t ts ih =>
      intro h
      rw [List.flatMap_cons, List.flatMap_cons, ih (fun ns hn => h ns (List.mem_cons_of_mem _ hn))]
      congr 1
      exact evalInlines_leaves env _ t false (h t (List.mem_cons_self ..))
  exact this _ hx

/-- the sample: document information, title, preamble, table of contents at the end
of the preamble, section -/
example : leaves (trace evEnv 0 evSample) = ['h', 't', 'p', 's', 's', 'l', 'a', 'b', 'c', 'k', 'v', 'x', 'y', 'q', 'w'].map (fun c => .text [c]) := by
  decide +kernel

/-! ### C44 -/

/-- Once a bound is not reached, larger bounds give the same calls: the run of the
program is well defined. -/
theorem C44_run_independent_of_bound (env : Env) (d : Doc) (hw : WellFormed d) {n m : Nat} (hm : n ≤ m) (h : .bound ∉ trace env n d) :
    trace env m d = trace env n d := (trace_mono env hm d hw h).symm

/-- **C44.** Evaluation terminates if references can be ranked so that, in every
anchor text, all references but the first go down (missing: other reference graphs,
see `C44_termination_violated`). This includes references in cycles as long as only
the first reference of a text is on the cycle. -/
theorem C44_terminates_partial (env : Env) (d : Doc) (hw : WellFormed d) (rank : Text → Nat)
    (hr : ∀ id a, env.anchors id = some a → ∀ text ∈ anchorTexts a, ∀ t ∈ (targets text).tail, rank t < rank id) : Terminates env d :=
  trace_terminates hr d hw

/-- **C44.** Evaluation terminates if no anchor refers to itself, directly or not. -/
theorem C44_terminates_acyclic_partial (env : Env) (d : Doc) (hw : WellFormed d) (ha : Acyclic env) : Terminates env d := by
  obtain ⟨rank, hr⟩ := ha
  exact trace_terminates (rank := rank) (fun id a h text ht t hx => hr id t ⟨a, h, text, ht, List.mem_of_mem_tail hx⟩) d hw

/-- an anchor with two references to another one -/
example : Acyclic ⟨fun id => if id = ['b'] then some ⟨none, [.xref ['c'] none, .xref ['c'] none], false⟩
    else if id = ['c'] then some ⟨none, [evText 'C'], false⟩ else none, true, false⟩ := by
  refine ⟨fun id => if id = ['b'] then 1 else 0, ?_⟩
  rintro id t ⟨a, h, text, ht, hx⟩
  dsimp only at h
  split at h
  · next hb =>
    subst hb; injection h with h; subst h
    simp only [anchorTexts, optText, List.mem_singleton] at ht
    subst ht
    have : t = ['c'] := by simpa [targets, nodeTargets, optTargets] using hx
    subst this; decide
  · split at h
    · injection h with h; subst h
      simp only [anchorTexts, optText, List.mem_singleton] at ht
      subst ht
      simp [targets, nodeTargets, evText] at hx
    · cases h

/-- **C44.** Evaluation terminates if no anchor text contains more than one
reference, whatever the references are, cycles included. -/
theorem C44_terminates_single_partial (env : Env) (d : Doc) (hw : WellFormed d)
    (hs : ∀ id a, env.anchors id = some a → ∀ text ∈ anchorTexts a, (targets text).length ≤ 1) : Terminates env d :=
  trace_terminates (rank := fun _ => 0) (fun id a h text ht t hx => by
    have h1 := hs id a h text ht
    have h2 := List.length_pos_of_mem hx
    rw [List.length_tail] at h2
    omega) d hw

/-- two anchors that refer to each other -/
def evCycle : Env where
  anchors id := if id = ['a'] then some ⟨none, [evText '1', .xref ['b'] none], false⟩
    else if id = ['b'] then some ⟨some [.xref ['a'] none, evText '2'], [], false⟩ else none
  entersVisible := true
  entersConcealed := false

example : ∀ id a, evCycle.anchors id = some a → ∀ text ∈ anchorTexts a, (targets text).length ≤ 1 := by
  intro id a h
  simp only [evCycle] at h
  split at h
  · injection h with h; subst h; decide
  · split at h
    · injection h with h; subst h; decide
    · cases h

example : ¬ Acyclic evCycle := by
  rintro ⟨r, h⟩
  have h1 := h ['a'] ['b'] ⟨⟨none, [evText '1', .xref ['b'] none], false⟩, rfl, _, List.mem_cons_self .., by decide⟩
  have h2 := h ['b'] ['a'] ⟨⟨some [.xref ['a'] none, evText '2'], [], false⟩, rfl, _, List.mem_cons_of_mem _ (List.mem_cons_self ..), by decide⟩
  omega

/-- an anchor whose text refers to itself twice: a section `== See <<a>> and <<a>>`
with the id `a` -/
def evTwice : List Inline := [evText '1', .xref ['a'] none, .xref ['a'] none]
@[inherit_doc evTwice]
def evTwiceEnv : Env := ⟨fun id => if id = ['a'] then some ⟨none, evTwice, false⟩ else none, true, false⟩

theorem twice_bound : ∀ (n : Nat), .bound ∈ (evalJump evTwiceEnv n evTwice true).1
  | 0 => by simp [evalJump]
  | n + 1 => by
    have ih := twice_bound n
    have : (evalJump evTwiceEnv (n + 1) evTwice true).1 =
        [.visit (.leaf (.text ['1']))] ++ (around (.xref ['a']) [.visit (.missingXref ['a'])] ++
          (around (.xref ['a']) (around (.xrefText false) (evalJump evTwiceEnv n evTwice true).1) ++ [])) := rfl
    rw [this]
    simp [around, ih]

/-- **C44 fails** for a well-formed document with a reference to an anchor whose
text refers to itself twice: while the text is resolved the first reference in it is
cut, but that resets the flag and the second one is resolved again, without end. -/
theorem C44_termination_violated : ∃ (env : Env) (d : Doc), WellFormed d ∧ ¬ Terminates env d := by
  refine ⟨evTwiceEnv, evDoc [evPara [.xref ['a'] none]], ?_, ?_⟩
  · simp [WellFormed, evPara, evDoc, AllDoc, AllDocContent, AllBlocks, AllBlock, AllContent, Fits, evInfo]
  · rintro ⟨n, h⟩
    have h2 : .bound ∈ inlines evTwiceEnv n [.xref ['a'] none] := by
      have : inlines evTwiceEnv n [.xref ['a'] none] = around (.xref ['a']) (around (.xrefText false) (evalJump evTwiceEnv n evTwice true).1) ++ [] := rfl
      rw [this]
      have := twice_bound n
      simp [around, this]
    refine h ?_
    have h3 : trace evTwiceEnv n (evDoc [evPara [.xref ['a'] none]]) =
        [.enter (.document evMeta), .enter .body, .enter .header, .exit .header, .enter .content, .enter (.paragraph (evInfo .paragraph)), .enter (.simpleContent (evInfo .paragraph))] ++
        (inlines evTwiceEnv n [.xref ['a'] none] ++
        [.exit (.simpleContent (evInfo .paragraph)), .exit (.paragraph (evInfo .paragraph)), .exit .content, .enter .footer, .exit .footer, .exit .body, .exit (.document evMeta)]) := by
      simp [trace, evDoc, visit, evalDocinfo, evalDocTitle, evalTocAt, evalDocContent, evalBlocks, evalBlock, evPara, evalContent, evalTitle, simple, around, view, evInfo]
    rw [h3]
    simp [h2]

/-- **C44.** A reference met while another one is being resolved is printed as
plain text, unless a reference before it in the same text has already been
(missing: the later ones, see `C44_plain_text_violated`). -/
theorem C44_first_reference_plain_partial (env : Env) (jump : Jump) (target : Text) (own : Option (List Inline)) :
    (evalInline env jump (.xref target own) true).1 = [.enter (.xref target), .visit (.missingXref target), .exit (.xref target)] := by
  cases own <;> rfl

/-- **C44 fails** in the second half too: in the text of anchor `b`, met while a
reference to `b` is being resolved, the second reference is resolved. -/
theorem C44_plain_text_violated :
    inlines ⟨fun id => if id = ['b'] then some ⟨none, [.xref ['c'] none, .xref ['c'] none], false⟩
        else if id = ['c'] then some ⟨none, [evText 'C'], false⟩ else none, true, false⟩ 2 [.xref ['b'] none] =
      around (.xref ['b']) (around (.xrefText false)
        (around (.xref ['c']) [.visit (.missingXref ['c'])] ++
         around (.xref ['c']) (around (.xrefText false) [.visit (.leaf (.text ['C']))]))) := by
  decide +kernel

end Verif.Props

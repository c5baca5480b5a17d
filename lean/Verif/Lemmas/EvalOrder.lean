import Verif.Spec.Eval
/-! Lemmas about the evaluator: texts in document order, and no panics. -/
set_option linter.unusedSectionVars false
set_option linter.unusedVariables false
namespace Verif.Eval
open Verif.Ast Verif.Spec.Eval

theorem leaves_append (a b : List Ev) : leaves (a ++ b) = leaves a ++ leaves b := by
  induction a with
  | nil => rfl
  | cons e a ih =>
    cases e with
    | visit v => cases v <;> simp [leaves, ih]
    | _ => simp [leaves, ih]

theorem leaves_around (c : Call) (a : List Ev) : leaves (around c a) = leaves a := by
  simp [around, leaves, leaves_append]

/-- The trace prints the given texts and does not panic; it reaches the bound only
inside one of them; and it is the same as another one, `evs'`, made from other
traces of texts, if these only differ when the bound is reached. -/
def P (inl inl' : List Inline → List Ev) (evs evs' : List Ev) (ts : List (List Inline)) : Prop :=
  leaves evs = ts.flatMap (fun ns => leaves (inl ns)) ∧ .panic ∉ evs ∧
    (.bound ∈ evs → ∃ ns ∈ ts, .bound ∈ inl ns) ∧ (.bound ∉ evs → evs = evs')

/-- the condition on blocks in `WellFormed` -/
abbrev wf : Block → Prop
  | .mk info _ _ _ content => Fits info.context content = true

theorem fits_simple {c : Context} {ns : List Inline} (h : Fits c (.simple ns) = true) :
    c = .paragraph ∨ c = .sidebar ∨ c = .listing ∨ c = .verse ∨ c = .blockQuote ∨ c = .example ∨ c = .admonition ∨ c = .literal ∨ c = .passthrough := by
  cases c <;> simp_all [Fits]

theorem fits_compound {c : Context} {bs : List Block} (h : Fits c (.compound bs) = true) :
    c = .sidebar ∨ c = .blockQuote ∨ c = .openBlock ∨ c = .example ∨ c = .admonition := by
  cases c <;> simp_all [Fits]

theorem fits_quoted {c : Context} {q a : List Inline} {ci : Option (List Inline)} (h : Fits c (.quoted q a ci) = true) : c = .quotedParagraph := by
  cases c <;> simp_all [Fits]

def isPlain : Item → Bool
  | .plain .. => true
  | .desc .. => false

theorem fits_list {c : Context} {v : Variant} {is : List Item} (h : Fits c (.list v is) = true) :
    (c = .descriptionList ∧ is.all (fun i => !isPlain i) = true) ∨ ((c = .orderedList ∨ c = .unorderedList ∨ c = .calloutList) ∧ is.all isPlain = true) := by
  cases c <;> simp_all [Fits]
  · intro i hi; have := h i hi; cases i <;> simp_all [isPlain]
  · intro i hi; have := h i hi; cases i <;> simp_all [isPlain]
  · intro i hi; have := h i hi; cases i <;> simp_all [isPlain]
  · intro i hi; have := h i hi; cases i <;> simp_all [isPlain]

theorem fits_section {c : Context} {s : Sect} (h : Fits c (.section s) = true) : c = .sectionBlock := by
  cases c <;> simp_all [Fits]
theorem fits_table {c : Context} {x y z} (h : Fits c (.table x y z) = true) : c = .table := by
  cases c <;> simp_all [Fits]
theorem fits_image {c : Context} {x y} (h : Fits c (.image x y) = true) : c = .image := by
  cases c <;> simp_all [Fits]
theorem fits_audioVideo {c : Context} (h : Fits c .audioVideo = true) : c = .audio ∨ c = .video := by
  cases c <;> simp_all [Fits]
theorem fits_heading {c : Context} {x y} (h : Fits c (.heading x y) = true) : c = .discreteHeading := by
  cases c <;> simp_all [Fits]
theorem fits_declaration {c : Context} {x} (h : Fits c (.declaration x) = true) : c = .documentAttributeDecl := by
  cases c <;> simp_all [Fits]
theorem fits_empty {c : Context} (h : Fits c .empty = true) : c = .thematicBreak ∨ c = .pageBreak ∨ c = .tableOfContents ∨ c = .comment := by
  cases c <;> simp_all [Fits]

/-- the texts after the content of a quote -/
def quoteTexts (c : Context) (a ci : Option (List Inline)) : List (List Inline) :=
  if c = .verse ∨ c = .blockQuote then optText a ++ optText ci else []

section
variable {inl inl' : List Inline → List Ev} (hi : ∀ ns, .panic ∉ inl ns ∧ (.bound ∉ inl ns → inl ns = inl' ns))

theorem P_nil : P inl inl' [] [] [] := ⟨rfl, by simp, by simp, by simp⟩
theorem P_append {a b a' b' : List Ev} {s t : List (List Inline)} (ha : P inl inl' a a' s) (hb : P inl inl' b b' t) :
    P inl inl' (a ++ b) (a' ++ b') (s ++ t) := by
  refine ⟨by rw [leaves_append, ha.1, hb.1, List.flatMap_append], ?_, ?_, ?_⟩
  · rw [List.mem_append]; rintro (h | h)
    · exact ha.2.1 h
    · exact hb.2.1 h
  · rw [List.mem_append]; rintro (h | h)
    · obtain ⟨ns, h1, h2⟩ := ha.2.2.1 h; exact ⟨ns, List.mem_append_left _ h1, h2⟩
    · obtain ⟨ns, h1, h2⟩ := hb.2.2.1 h; exact ⟨ns, List.mem_append_right _ h1, h2⟩
  · intro h
    rw [ha.2.2.2 (fun h' => h (List.mem_append_left _ h')), hb.2.2.2 (fun h' => h (List.mem_append_right _ h'))]
theorem P_around (c : Call) {a a' : List Ev} {s : List (List Inline)} (ha : P inl inl' a a' s) : P inl inl' (around c a) (around c a') s :=
  ⟨by rw [leaves_around, ha.1], by have := ha.2.1; simp [around, this], fun h => ha.2.2.1 (by simpa [around] using h),
    fun h => by rw [ha.2.2.2 (by simpa [around] using h)]⟩
theorem P_visit (v : Visit) (hv : ∀ l, v ≠ .leaf l) : P inl inl' [.visit v] [.visit v] [] := by
  cases v with
  | leaf l => exact absurd rfl (hv l)
  | _ => exact ⟨rfl, by simp, by simp, fun _ => rfl⟩
theorem P_cast {a a' : List Ev} {s t : List (List Inline)} (h : P inl inl' a a' s) (e : s = t) : P inl inl' a a' t := e ▸ h

include hi
theorem P_inl (ns : List Inline) : P inl inl' (inl ns) (inl' ns) [ns] := ⟨by simp, (hi ns).1, fun h => ⟨ns, by simp, h⟩, (hi ns).2⟩

theorem evalQuoteAttr_P (b : BlockInfo) (a c : Option (List Inline)) : P inl inl' (evalQuoteAttr inl b a c) (evalQuoteAttr inl' b a c) (optText a ++ optText c) := by
  cases a <;> cases c
  · exact P_append P_nil P_nil
  · exact P_append P_nil (P_around _ (P_inl hi _))
  · exact P_append (P_around _ (P_inl hi _)) P_nil
  · exact P_append (P_around _ (P_inl hi _)) (P_around _ (P_inl hi _))

mutual
theorem evalTocNode_P : ∀ t : TocNode, P inl inl' (evalTocNode inl t) (evalTocNode inl' t) (tocNodeTexts t)
  | .mk _ title [] => P_cast (P_around _ (P_append (P_around _ (P_inl hi title)) P_nil)) (by simp [tocNodeTexts, tocTexts])
  | .mk _ title (c :: cs) => P_cast (P_around _ (P_append (P_around _ (P_inl hi title)) (P_around _ (P_append (evalTocNode_P c) (evalTocNodes_P cs)))))
      (by simp [tocNodeTexts, tocTexts])
theorem evalTocNodes_P : ∀ ts : List TocNode, P inl inl' (evalTocNodes inl ts) (evalTocNodes inl' ts) (tocTexts ts)
  | [] => P_nil
  | t :: ts => P_append (evalTocNode_P t) (evalTocNodes_P ts)
end

theorem evalTocAt_P (toc : Option Toc) (ps : List TocPosition) : P inl inl' (evalTocAt inl toc ps) (evalTocAt inl' toc ps) (tocTextsAt toc ps) := by
  cases toc with
  | none => exact P_nil
  | some t =>
    simp only [evalTocAt, tocTextsAt]
    by_cases h1 : t.position ∈ ps
    · by_cases h2 : t.nodes = []
      · rw [if_pos (.inr h2), if_pos (.inr h2), if_pos h1, h2]; exact P_nil
      · rw [if_neg (by simp [h1, h2]), if_neg (by simp [h1, h2]), if_pos h1]
        exact P_around _ (P_around _ (evalTocNodes_P hi t.nodes))
    · rw [if_pos (.inl h1), if_pos (.inl h1), if_neg h1]; exact P_nil

theorem evalTitle_P (b : BlockInfo) (t : Option (List Inline)) : P inl inl' (evalTitle inl b t) (evalTitle inl' b t) (optText t) := by
  cases t with
  | none => exact P_nil
  | some ns => exact P_around _ (P_inl hi ns)

theorem evalTerms_P : ∀ (i : Nat) (ts : List (List Inline)), P inl inl' (evalTerms inl i ts) (evalTerms inl' i ts) ts
  | _, [] => P_nil
  | i, t :: ts => P_append (P_around _ (P_inl hi t)) (evalTerms_P (i + 1) ts)

theorem evalCellParagraphs_P (style : CellStyle) (s : TableSection) (m : Bool) : ∀ ps : List (List Inline), P inl inl' (evalCellParagraphs inl style s m ps) (evalCellParagraphs inl' style s m ps) ps
  | [] => P_nil
  | p :: ps => P_append (P_around _ (P_inl hi p)) (evalCellParagraphs_P style s m ps)

theorem evalDocinfo_P (e : Bool) (f : Option (List Inline)) : P inl inl' (evalDocinfo inl e f) (evalDocinfo inl' e f) (if e then [] else optText f) := by
  cases f <;> cases e
  · exact P_nil
  · exact P_nil
  · exact P_inl hi _
  · exact P_nil

theorem evalDocTitle_P (t : Option (List Inline)) : P inl inl' (evalDocTitle inl t) (evalDocTitle inl' t) (optText t) := by
  cases t with
  | none => exact P_nil
  | some ns => exact P_around _ (P_inl hi ns)

mutual
theorem evalBlock_P (toc : Option Toc) : ∀ b : Block, AllBlock wf b → P inl inl' (evalBlock inl toc b) (evalBlock inl' toc b) (blockTexts toc b)
  | .mk info title a c content, h => by
    have h1 := evalTitle_P hi (view info title) title
    have h2 := evalContent_P toc (view info title) a c content h.1 h.2
    simp only [evalBlock, blockTexts, List.append_assoc]
    exact P_append h1 h2
theorem evalContent_P (toc : Option Toc) (b : BlockInfo) (a c : Option (List Inline)) : ∀ x : Content,
    Fits b.context x = true → AllContent wf x → P inl inl' (evalContent inl toc b a c x) (evalContent inl' toc b a c x) (contentTexts toc b.context x ++ quoteTexts b.context a c)
  | .simple ns, hf, _ => by
    have h1 : P inl inl' (simple inl b ns) (simple inl' b ns) [ns] := P_around _ (P_inl hi ns)
    have h2 := evalQuoteAttr_P hi b a c
    rcases fits_simple hf with h | h | h | h | h | h | h | h | h <;>
      simp only [evalContent, contentTexts, quoteTexts, h]
    · exact P_around _ h1
    · exact P_around _ h1
    · exact P_around _ h1
    · exact P_around _ (P_append h1 h2)
    · exact P_around _ (P_append h1 h2)
    · exact P_around _ h1
    · exact P_around _ (P_inl hi ns)
    · exact P_around _ h1
    · exact P_around _ h1
  | .compound bs, hf, ha => by
    have h0 := evalBlocks_P toc bs ha
    have h1 : P inl inl' (around .compoundContent (evalBlocks inl toc bs)) (around .compoundContent (evalBlocks inl' toc bs)) (blocksTexts toc bs) := P_around _ h0
    have h2 := evalQuoteAttr_P hi b a c
    rcases fits_compound hf with h | h | h | h | h <;> simp only [evalContent, contentTexts, quoteTexts, h]
    · exact P_around _ (P_cast h1 (by simp))
    · exact P_around _ (P_append h1 h2)
    · exact P_around _ (P_cast h1 (by simp))
    · exact P_around _ (P_cast h1 (by simp))
    · exact P_around _ (P_cast h1 (by simp))
  | .quoted q at' ci, hf, _ => by
    have h := fits_quoted hf
    simp only [evalContent, contentTexts, quoteTexts, h]
    exact P_around _ (P_cast (P_append (P_inl hi q) (evalQuoteAttr_P hi b (some at') ci)) (by simp [optText]))
  | .list v items, hf, ha => by
    rcases fits_list hf with ⟨h, hp⟩ | ⟨h, hp⟩
    · simp only [evalContent, contentTexts, quoteTexts, h]
      exact P_around _ (P_cast (evalDescItems_P toc items hp ha) (by simp))
    · have h1 := evalItems_P toc v items hp ha
      rcases h with h | h | h <;> simp only [evalContent, contentTexts, quoteTexts, h] <;>
        exact P_around _ (P_cast h1 (by simp))
  | .section s, hf, ha => by
    have h := fits_section hf
    simp only [evalContent, contentTexts, quoteTexts, h]
    exact P_cast (evalSect_P toc s ha) (by simp)
  | .table header rows footer, hf, ha => by
    have h := fits_table hf
    simp only [evalContent, contentTexts, quoteTexts, h]
    exact P_around _ (P_cast (P_append (P_append (evalEdge_P .header header ha.1) (evalBody_P rows ha.2.1)) (evalEdge_P .footer footer ha.2.2)) (by simp))
  | .image t l, hf, _ => by
    have h := fits_image hf
    simp only [evalContent, contentTexts, quoteTexts, h]
    exact P_around _ P_nil
  | .audioVideo, hf, _ => by
    rcases fits_audioVideo hf with h | h <;> simp only [evalContent, contentTexts, quoteTexts, h] <;>
      exact P_visit _ (by intro l h; cases h)
  | .heading l ns, hf, _ => by
    have h := fits_heading hf
    simp only [evalContent, contentTexts, quoteTexts, h]
    exact P_around _ (P_inl hi ns)
  | .declaration m, hf, _ => by
    have h := fits_declaration hf
    simp only [evalContent, contentTexts, quoteTexts, h]
    exact P_visit _ (by intro l h; cases h)
  | .empty, hf, _ => by
    rcases fits_empty hf with h | h | h | h <;> simp only [evalContent, contentTexts, quoteTexts, h, evalOther]
    · exact P_visit _ (by intro l h; cases h)
    · exact P_visit _ (by intro l h; cases h)
    · exact P_cast (evalTocAt_P hi toc [.byMacro]) (by simp)
    · exact P_nil
theorem evalBlocks_P (toc : Option Toc) : ∀ bs : List Block, AllBlocks wf bs → P inl inl' (evalBlocks inl toc bs) (evalBlocks inl' toc bs) (blocksTexts toc bs)
  | [], _ => P_nil
  | b :: bs, h => P_append (evalBlock_P toc b h.1) (evalBlocks_P toc bs h.2)
theorem evalItem_P (toc : Option Toc) (v : Variant) : ∀ i : Item, isPlain i = true → AllItem wf i → P inl inl' (evalItem inl toc v i) (evalItem inl' toc v i) (itemTexts toc i)
  | .plain p bs, _, h => P_append (P_around _ (P_inl hi p)) (P_around _ (evalBlocks_P toc bs h))
  | .desc p _ _ bs, h, _ => by cases h
theorem evalItems_P (toc : Option Toc) (v : Variant) : ∀ is : List Item, is.all isPlain = true → AllItems wf is → P inl inl' (evalItems inl toc v is) (evalItems inl' toc v is) (itemsTexts toc is)
  | [], _, _ => P_nil
  | i :: is, hp, h => by
    rw [List.all_cons, Bool.and_eq_true] at hp
    exact P_append (evalItem_P toc v i hp.1 h.1) (evalItems_P toc v is hp.2 h.2)
theorem evalDescItem_P (toc : Option Toc) : ∀ i : Item, (!isPlain i) = true → AllItem wf i → P inl inl' (evalDescItem inl toc i) (evalDescItem inl' toc i) (itemTexts toc i)
  | .plain _ _, h, _ => by cases h
  | .desc p ex none [], _, h => P_cast (P_append (evalTerms_P hi 1 (p :: ex)) P_nil) (by simp [itemTexts, blocksTexts])
  | .desc p ex none (b :: bs), _, h => P_cast (P_append (evalTerms_P hi 1 (p :: ex)) (P_around _
      (P_append (P_around _ (evalBlock_P toc b h.2.1)) (evalDescBlocks_P toc bs h.2.2)))) (by simp [itemTexts, blocksTexts])
  | .desc p ex (some d) bs, _, h => P_cast (P_append (evalTerms_P hi 1 (p :: ex)) (P_around _
      (P_append (P_around _ (evalBlock_P toc d h.1)) (evalDescBlocks_P toc bs h.2)))) (by simp [itemTexts])
theorem evalDescItems_P (toc : Option Toc) : ∀ is : List Item, is.all (fun i => !isPlain i) = true → AllItems wf is →
    P inl inl' (evalDescItems inl toc is) (evalDescItems inl' toc is) (itemsTexts toc is)
  | [], _, _ => P_nil
  | i :: is, hp, h => by
    rw [List.all_cons, Bool.and_eq_true] at hp
    exact P_append (evalDescItem_P toc i hp.1 h.1) (evalDescItems_P toc is hp.2 h.2)
theorem evalDescBlocks_P (toc : Option Toc) : ∀ bs : List Block, AllBlocks wf bs → P inl inl' (evalDescBlocks inl toc bs) (evalDescBlocks inl' toc bs) (blocksTexts toc bs)
  | [], _ => P_nil
  | b :: bs, h => P_append (P_around _ (evalBlock_P toc b h.1)) (evalDescBlocks_P toc bs h.2)
theorem evalSect_P (toc : Option Toc) : ∀ s : Sect, AllSect wf s → P inl inl' (evalSect inl toc s) (evalSect inl' toc s) (sectTexts toc s)
  | .mk info h bs, ha => P_around _ (P_append (P_around _ (P_inl hi h)) (evalBlocks_P toc bs ha))
theorem evalSects_P (toc : Option Toc) : ∀ ss : List Sect, AllSects wf ss → P inl inl' (evalSects inl toc ss) (evalSects inl' toc ss) (sectsTexts toc ss)
  | [], _ => P_nil
  | s :: ss, h => P_append (evalSect_P toc s h.1) (evalSects_P toc ss h.2)
theorem evalCell_P (s : TableSection) : ∀ c : Cell, AllCell wf c → P inl inl' (evalCell inl s c) (evalCell inl' s c) (cellTexts c)
  | .paragraphs style ps, _ => P_around _ (evalCellParagraphs_P hi style s _ ps)
  | .literal ns, _ => P_around _ (P_inl hi ns)
  | .asciidoc d, h => P_around _ (P_around _ (visit_P d h))
theorem evalCells_P (s : TableSection) : ∀ cs : List Cell, AllCells wf cs → P inl inl' (evalCells inl s cs) (evalCells inl' s cs) (cellsTexts cs)
  | [], _ => P_nil
  | c :: cs, h => P_append (evalCell_P s c h.1) (evalCells_P s cs h.2)
theorem evalEdge_P (s : TableSection) : ∀ cs : Option (List Cell), AllEdge wf cs → P inl inl' (evalEdge inl s cs) (evalEdge inl' s cs) (edgeTexts cs)
  | none, _ => P_nil
  | some cs, h => P_around _ (P_around _ (evalCells_P s cs h))
theorem evalBody_P : ∀ rs : List (List Cell), AllRows wf rs → P inl inl' (evalBody inl rs) (evalBody inl' rs) (rowsTexts rs)
  | [], _ => P_nil
  | r :: rs, h => P_around _ (P_append (P_around _ (evalCells_P .body r h.1)) (evalRows_P rs h.2))
theorem evalRows_P : ∀ rs : List (List Cell), AllRows wf rs → P inl inl' (evalRows inl rs) (evalRows inl' rs) (rowsTexts rs)
  | [], _ => P_nil
  | r :: rs, h => P_append (P_around _ (evalCells_P .body r h.1)) (evalRows_P rs h.2)
theorem evalPart_P (toc : Option Toc) : ∀ p : Part, AllPart wf p → P inl inl' (evalPart inl toc p) (evalPart inl' toc p) (partTexts toc p)
  | .mk t bt none ss, h => P_cast (P_around _ (P_append (P_append (P_around _ (P_inl hi t)) P_nil) (evalSects_P toc ss h.2))) (by simp [partTexts])
  | .mk t none (some bs) ss, h => P_cast (P_around _ (P_append (P_append (P_around _ (P_inl hi t)) (P_around _ (P_append P_nil
      (P_around _ (evalBlocks_P toc bs h.1))))) (evalSects_P toc ss h.2))) (by simp [partTexts, optText])
  | .mk t (some ns) (some bs) ss, h => P_cast (P_around _ (P_append (P_append (P_around _ (P_inl hi t)) (P_around _ (P_append (P_inl hi ns)
      (P_around _ (evalBlocks_P toc bs h.1))))) (evalSects_P toc ss h.2))) (by simp [partTexts, optText])
theorem evalParts_P (toc : Option Toc) : ∀ ps : List Part, AllParts wf ps → P inl inl' (evalParts inl toc ps) (evalParts inl' toc ps) (partsTexts toc ps)
  | [], _ => P_nil
  | p :: ps, h => P_append (evalPart_P toc p h.1) (evalParts_P toc ps h.2)
theorem evalDocContent_P (toc : Option Toc) (t : Bool) : ∀ c : DocContent, AllDocContent wf c → P inl inl' (evalDocContent inl toc t c) (evalDocContent inl' toc t c) (docContentTexts toc c)
  | .blocks bs, h => evalBlocks_P toc bs h
  | .sections none ss, h => evalSects_P toc ss h.2
  | .sections (some bs) ss, h => P_append (P_around _ (P_append (evalBlocks_P toc bs h.1) (evalTocAt_P hi toc [.preamble]))) (evalSects_P toc ss h.2)
  | .parts none o ps c, h => P_append (P_append (evalSects_P toc o h.2.1) (evalParts_P toc ps h.2.2.1)) (evalSects_P toc c h.2.2.2)
  | .parts (some bs) o ps c, h => P_append (P_append (P_around _ (P_append (P_append (evalBlocks_P toc bs h.1) (evalSects_P toc o h.2.1))
      (evalTocAt_P hi toc [.preamble]))) (evalParts_P toc ps h.2.2.1)) (evalSects_P toc c h.2.2.2)
theorem visit_P : ∀ d : Doc, AllDoc wf d → P inl inl' (visit inl d) (visit inl' d) (docTexts d)
  | .mk attrs title toc head header footer content, h => by
    have h1 := evalTocAt_P hi toc [.auto, .left, .right]
    have h2 := evalDocContent_P toc title.isSome content h
    have hd := evalDocinfo_P hi attrs.embedded
    have ht := evalDocTitle_P hi title
    simp only [visit]
    refine P_cast (P_around _ (P_append (hd head) (P_around _ (P_append (P_append (P_append (P_append (P_append (hd header) (P_around _ ht)) h1) (P_around _ h2)) (P_around _ P_nil)) (hd footer))))) ?_
    cases he : attrs.embedded <;> simp [docTexts, he]
end
end

/-! Inline nodes. -/

theorem xrefInner_panic (env : Env) (jump : Jump) (hj : ∀ ns f, .panic ∉ (jump ns f).1) (t : Text) (own : Option (Bool × List Ev))
    (ho : ∀ p, own = some p → .panic ∉ p.2) (f : Bool) : .panic ∉ xrefInner env jump t own f := by
  have hm : .panic ∉ [Ev.visit (.missingXref t)] := by simp
  have hs : ∀ (b : Bool) (evs : List Ev), .panic ∉ evs → .panic ∉ around (.xrefText b) evs := fun b evs h => by simp [around, h]
  unfold xrefInner
  cases f with
  | true => exact hm
  | false =>
    cases env.anchors t with
    | none =>
      cases own with
      | none => exact hm
      | some p => exact hs _ _ (ho p rfl)
    | some a =>
      obtain ⟨reftext, title, bib⟩ := a
      cases reftext with
      | none =>
        cases own with
        | none => dsimp only; repeat' (first | exact hm | (apply hs; apply hj) | split)
        | some p =>
          have hp := ho p rfl
          obtain ⟨e, evs⟩ := p
          dsimp only at hp ⊢; repeat' (first | exact hm | (apply hs; exact hp) | split)
      | some text =>
        cases own with
        | none => dsimp only; repeat' (first | exact hm | (apply hs; apply hj) | split)
        | some p =>
          have hp := ho p rfl
          obtain ⟨e, evs⟩ := p
          dsimp only at hp ⊢; repeat' (first | exact hm | (apply hs; apply hj) | (apply hs; exact hp) | split)

theorem around_panic {c : Call} {a : List Ev} (h : .panic ∉ a) : .panic ∉ around c a := by simp [around, h]
theorem append_panic {a b : List Ev} (h : .panic ∉ a) (h' : .panic ∉ b) : .panic ∉ a ++ b := by simp [h, h']

mutual
theorem evalInline_panic (env : Env) (jump : Jump) (hj : ∀ ns f, .panic ∉ (jump ns f).1) : ∀ (n : Inline) (f : Bool), .panic ∉ (evalInline env jump n f).1
  | .leaf l, f => by simp [evalInline]
  | .skipped, f => by simp [evalInline]
  | .wrap k ns, f => around_panic (evalInlines_panic env jump hj ns f)
  | .footnote id none, f => around_panic (by simp)
  | .footnote id (some ns), f => around_panic (evalInlines_panic env jump hj ns f)
  | .link none, f => around_panic (by simp)
  | .link (some ns), f => around_panic (evalInlines_panic env jump hj ns f)
  | .mailto none, f => around_panic (by simp)
  | .mailto (some ns), f => around_panic (evalInlines_panic env jump hj ns f)
  | .xref t none, f => around_panic (xrefInner_panic env jump hj t none (fun _ h => (by cases h)) f)
  | .xref t (some ns), f => around_panic (xrefInner_panic env jump hj t _ (fun _ h => (by
      cases h; exact evalInlines_panic env jump hj ns true)) f)
  | .visibleTerm ns, f => by
    have := evalInlines_panic env jump hj ns f
    simp only [evalInline]
    split <;> simp [this]
  | .concealedTerm p s t, f => by
    simp only [evalInline]
    have h1 := evalInlines_panic env jump hj p f
    have h2 := evalTerm_panic env jump hj .secondaryTerm s (evalInlines env jump p f).2
    have h3 := evalTerm_panic env jump hj .tertiaryTerm t (evalTerm env jump .secondaryTerm s (evalInlines env jump p f).2).2
    split
    · exact around_panic (append_panic (append_panic (around_panic h1) h2) h3)
    · exact around_panic (by simp)
theorem evalInlines_panic (env : Env) (jump : Jump) (hj : ∀ ns f, .panic ∉ (jump ns f).1) : ∀ (ns : List Inline) (f : Bool), .panic ∉ (evalInlines env jump ns f).1
  | [], f => by simp [evalInlines]
  | n :: ns, f => append_panic (evalInline_panic env jump hj n f) (evalInlines_panic env jump hj ns _)
theorem evalTerm_panic (env : Env) (jump : Jump) (hj : ∀ ns f, .panic ∉ (jump ns f).1) (c : Call) :
    ∀ (ns : Option (List Inline)) (f : Bool), .panic ∉ (evalTerm env jump c ns f).1
  | none, f => by simp [evalTerm]
  | some ns, f => around_panic (evalInlines_panic env jump hj ns f)
end

theorem evalJump_panic (env : Env) : ∀ (n : Nat) (ns : List Inline) (f : Bool), .panic ∉ (evalJump env n ns f).1
  | 0, _, _ => by simp [evalJump]
  | n + 1, ns, f => evalInlines_panic env _ (evalJump_panic env n) ns f

theorem inlines_panic (env : Env) (n : Nat) (ns : List Inline) : .panic ∉ inlines env n ns :=
  evalInlines_panic env _ (evalJump_panic env n) ns false

mutual
theorem evalInline_leaves (env : Env) (jump : Jump) : ∀ (n : Inline) (f : Bool), NoXref n →
    leaves (evalInline env jump n f).1 = nodeLeaves env.entersVisible env.entersConcealed n
  | .leaf l, f, _ => rfl
  | .skipped, f, _ => rfl
  | .wrap k ns, f, h => by simp only [evalInline, leaves_around]; exact evalInlines_leaves env jump ns f h
  | .footnote id none, f, _ => rfl
  | .footnote id (some ns), f, h => by simp only [evalInline, leaves_around]; exact evalInlines_leaves env jump ns f h
  | .link none, f, _ => rfl
  | .link (some ns), f, h => by simp only [evalInline, leaves_around]; exact evalInlines_leaves env jump ns f h
  | .mailto none, f, _ => rfl
  | .mailto (some ns), f, h => by simp only [evalInline, leaves_around]; exact evalInlines_leaves env jump ns f h
  | .xref t o, f, h => h.elim
  | .visibleTerm ns, f, h => by
    have := evalInlines_leaves env jump ns f h
    simp only [evalInline, nodeLeaves]
    split <;> simp [leaves, this]
  | .concealedTerm p s t, f, h => by
    have h1 := evalInlines_leaves env jump p f h.1
    have h2 := evalTerm_leaves env jump .secondaryTerm s (evalInlines env jump p f).2 h.2.1
    have h3 := evalTerm_leaves env jump .tertiaryTerm t (evalTerm env jump .secondaryTerm s (evalInlines env jump p f).2).2 h.2.2
    simp only [evalInline, nodeLeaves]
    split <;> simp [leaves_around, leaves_append, h1, h2, h3, leaves]
theorem evalInlines_leaves (env : Env) (jump : Jump) : ∀ (ns : List Inline) (f : Bool), NoXrefs ns →
    leaves (evalInlines env jump ns f).1 = nodesLeaves env.entersVisible env.entersConcealed ns
  | [], f, _ => rfl
  | n :: ns, f, h => by
    simp only [evalInlines, leaves_append, nodesLeaves]
    rw [evalInline_leaves env jump n f h.1, evalInlines_leaves env jump ns _ h.2]
theorem evalTerm_leaves (env : Env) (jump : Jump) (c : Call) : ∀ (ns : Option (List Inline)) (f : Bool), NoXrefO ns →
    leaves (evalTerm env jump c ns f).1 = optLeaves env.entersVisible env.entersConcealed ns
  | none, f, _ => rfl
  | some ns, f, h => by simp only [evalTerm, leaves_around]; exact evalInlines_leaves env jump ns f h
end

end Verif.Eval

import Verif.Spec.Eval
/-! Induction principles for traces: inline traces are nested, block traces are
concatenations of single calls and inline traces. -/
set_option linter.unusedSectionVars false
set_option linter.unusedVariables false
namespace Verif.Eval
open Verif.Ast Verif.Spec.Eval

/-- calls made for inline nodes, apart from `enter_visible_index_term` -/
def inlineCall : Call → Bool
  | .wrap _ | .footnote _ | .link .. | .mailto _ | .xref _ | .xrefText _ | .concealedTerm
  | .primaryTerm | .secondaryTerm | .tertiaryTerm => true
  | _ => false

/-- the traces of inline nodes -/
inductive I : List Ev → Prop
  | nil : I []
  | leaf (l : Leaf) : I [.visit (.leaf l)]
  | missing (t : Text) : I [.visit (.missingXref t)]
  | bound : I [.bound]
  | vterm : I [.enter .visibleTerm]
  | around (c : Call) (hc : inlineCall c = true) {a : List Ev} : I a → I (around c a)
  | append {a b : List Ev} : I a → I b → I (a ++ b)

theorem xrefInner_I (env : Env) (jump : Jump) (hj : ∀ ns f, I (jump ns f).1) (t : Text) (own : Option (Bool × List Ev))
    (ho : ∀ p, own = some p → I p.2) (f : Bool) : I (xrefInner env jump t own f) := by
  have hm : I [.visit (.missingXref t)] := .missing _
  have hs : ∀ (b : Bool) (evs : List Ev), I evs → I (around (.xrefText b) evs) := fun b evs h => .around _ rfl h
  unfold xrefInner
  cases f with
  | true => exact hm
  | false =>
    cases env.anchors t with
    | none =>
      cases own with
      | none => exact hm
      | some p => exact hs _ _ (ho p rfl)
    | some a =>
      obtain ⟨reftext, title, bib⟩ := a
      cases reftext with
      | none =>
        cases own with
        | none => dsimp only; repeat' (first | exact hm | (apply hs; apply hj) | split)
        | some p =>
          have hp := ho p rfl
          obtain ⟨e, evs⟩ := p
          dsimp only at hp ⊢; repeat' (first | exact hm | (apply hs; exact hp) | split)
      | some text =>
        cases own with
        | none => dsimp only; repeat' (first | exact hm | (apply hs; apply hj) | split)
        | some p =>
          have hp := ho p rfl
          obtain ⟨e, evs⟩ := p
          dsimp only at hp ⊢; repeat' (first | exact hm | (apply hs; apply hj) | (apply hs; exact hp) | split)

mutual
theorem evalInline_I (env : Env) (jump : Jump) (hj : ∀ ns f, I (jump ns f).1) : ∀ (n : Inline) (f : Bool), I (evalInline env jump n f).1
  | .leaf l, f => .leaf _
  | .skipped, f => .nil
  | .wrap k ns, f => .around _ rfl (evalInlines_I env jump hj ns f)
  | .footnote id none, f => .around _ rfl .nil
  | .footnote id (some ns), f => .around _ rfl (evalInlines_I env jump hj ns f)
  | .link none, f => .around _ rfl .nil
  | .link (some ns), f => .around _ rfl (evalInlines_I env jump hj ns f)
  | .mailto none, f => .around _ rfl .nil
  | .mailto (some ns), f => .around _ rfl (evalInlines_I env jump hj ns f)
  | .xref t none, f => .around _ rfl (xrefInner_I env jump hj t none (fun _ h => (by cases h)) f)
  | .xref t (some ns), f => .around _ rfl (xrefInner_I env jump hj t _ (fun _ h => (by
      cases h; exact evalInlines_I env jump hj ns true)) f)
  | .visibleTerm ns, f => by
    simp only [evalInline]
    split
    · exact .append (a := [.enter .visibleTerm]) .vterm (evalInlines_I env jump hj ns f)
    · exact .vterm
  | .concealedTerm p s t, f => by
    simp only [evalInline]
    have h1 := evalInlines_I env jump hj p f
    have h2 := evalTerm_I env jump hj .secondaryTerm rfl s (evalInlines env jump p f).2
    have h3 := evalTerm_I env jump hj .tertiaryTerm rfl t (evalTerm env jump .secondaryTerm s (evalInlines env jump p f).2).2
    split
    · exact .around _ rfl (.append (.append (.around _ rfl h1) h2) h3)
    · exact .around _ rfl .nil
theorem evalInlines_I (env : Env) (jump : Jump) (hj : ∀ ns f, I (jump ns f).1) : ∀ (ns : List Inline) (f : Bool), I (evalInlines env jump ns f).1
  | [], f => .nil
  | n :: ns, f => .append (evalInline_I env jump hj n f) (evalInlines_I env jump hj ns _)
theorem evalTerm_I (env : Env) (jump : Jump) (hj : ∀ ns f, I (jump ns f).1) (c : Call) (hc : inlineCall c = true) :
    ∀ (ns : Option (List Inline)) (f : Bool), I (evalTerm env jump c ns f).1
  | none, f => .nil
  | some ns, f => .around _ hc (evalInlines_I env jump hj ns f)
end

theorem evalJump_I (env : Env) : ∀ (n : Nat) (ns : List Inline) (f : Bool), I (evalJump env n ns f).1
  | 0, _, _ => .bound
  | n + 1, ns, f => evalInlines_I env _ (evalJump_I env n) ns f

theorem inlines_I (env : Env) (n : Nat) (ns : List Inline) : I (inlines env n ns) :=
  evalInlines_I env _ (evalJump_I env n) ns false

/-- calls around blocks that are handled one at a time below -/
def plainCall : Call → Bool
  | .metaTitle _ | .documentTitle | .cellDocument | .visibleTerm => false
  | c => !inlineCall c

/-- calls that visit a block -/
def blockVisit : Visit → Bool
  | .leaf _ | .missingXref _ => false
  | _ => true

/-- what is needed of a predicate on traces to hold of all traces of documents -/
structure Closed (inl : List Inline → List Ev) (P : List Ev → Prop) : Prop where
  nil : P []
  app : ∀ {a b}, P a → P b → P (a ++ b)
  enter : ∀ c, plainCall c = true → P [.enter c]
  exit : ∀ c, plainCall c = true → P [.exit c]
  visit : ∀ v, blockVisit v = true → P [.visit v]
  panic : P [.panic]
  text : ∀ ns, P (inl ns)
  title : ∀ b ns, P (around (.metaTitle b) (inl ns))
  docTitle : ∀ ns, P (around .documentTitle (inl ns))
  cell : ∀ {a}, P a → P (around .cellDocument a)

section
variable {inl : List Inline → List Ev} {P : List Ev → Prop} (C : Closed inl P)
include C

theorem Closed.around (c : Call) (hc : plainCall c = true) {a : List Ev} (ha : P a) : P (around c a) :=
  C.app (a := [.enter c]) (C.enter c hc) (C.app ha (C.exit c hc))

macro "close" C:ident : tactic => `(tactic| repeat' (first
  | assumption
  | exact Closed.nil $C | exact Closed.panic $C | exact Closed.visit $C _ rfl | exact Closed.text $C _
  | refine Closed.around $C _ rfl ?_
  | refine Closed.app $C ?_ ?_
  | split))

theorem simple_C (b : BlockInfo) (ns : List Inline) : P (simple inl b ns) := C.around _ rfl (C.text ns)

theorem evalQuoteAttr_C (b : BlockInfo) (a c : Option (List Inline)) : P (evalQuoteAttr inl b a c) := by
  cases a <;> cases c <;> simp only [evalQuoteAttr] <;> close C

mutual
theorem evalTocNode_C : ∀ t : TocNode, P (evalTocNode inl t)
  | .mk _ title [] => by simp only [evalTocNode]; close C
  | .mk _ title (c :: cs) => by
    have h1 := evalTocNode_C c
    have h2 := evalTocNodes_C cs
    simp only [evalTocNode]; close C
theorem evalTocNodes_C : ∀ ts : List TocNode, P (evalTocNodes inl ts)
  | [] => C.nil
  | t :: ts => C.app (evalTocNode_C t) (evalTocNodes_C ts)
end

theorem evalTocAt_C (toc : Option Toc) (ps : List TocPosition) : P (evalTocAt inl toc ps) := by
  cases toc with
  | none => exact C.nil
  | some t =>
    have := evalTocNodes_C C t.nodes
    simp only [evalTocAt]; close C

theorem evalTitle_C (b : BlockInfo) (t : Option (List Inline)) : P (evalTitle inl b t) := by
  cases t with
  | none => exact C.nil
  | some ns => exact C.title _ ns

theorem evalTerms_C : ∀ (i : Nat) (ts : List (List Inline)), P (evalTerms inl i ts)
  | _, [] => C.nil
  | i, t :: ts => C.app (C.around _ rfl (C.text t)) (evalTerms_C (i + 1) ts)

theorem evalCellParagraphs_C (style : CellStyle) (s : TableSection) (m : Bool) : ∀ ps : List (List Inline), P (evalCellParagraphs inl style s m ps)
  | [] => C.nil
  | p :: ps => C.app (C.around _ rfl (C.text p)) (evalCellParagraphs_C style s m ps)

theorem evalOther_C (toc : Option Toc) (c : Context) : P (evalOther inl toc c) := by
  have := evalTocAt_C C toc [.byMacro]
  unfold evalOther; close C

theorem evalDocinfo_C (e : Bool) (f : Option (List Inline)) : P (evalDocinfo inl e f) := by
  cases f with
  | none => exact C.nil
  | some ns => simp only [evalDocinfo]; close C

theorem evalDocTitle_C (t : Option (List Inline)) : P (evalDocTitle inl t) := by
  cases t with
  | none => exact C.nil
  | some ns => exact C.docTitle ns

mutual
theorem evalBlock_C (toc : Option Toc) : ∀ b : Block, P (evalBlock inl toc b)
  | .mk info title a c content => C.app (evalTitle_C C _ _) (evalContent_C toc _ a c content)
theorem evalContent_C (toc : Option Toc) (b : BlockInfo) (a c : Option (List Inline)) : ∀ x : Content, P (evalContent inl toc b a c x)
  | .simple ns => by
    have h1 := simple_C C b ns
    have h2 := evalQuoteAttr_C C b a c
    have h3 := evalOther_C C toc
    simp only [evalContent]; split <;> first | exact h3 _ | close C
  | .compound bs => by
    have h1 := evalBlocks_C toc bs
    have h2 := evalQuoteAttr_C C b a c
    have h3 := evalOther_C C toc
    simp only [evalContent]; split <;> first | exact h3 _ | close C
  | .quoted q at' ci => by
    have h2 := evalQuoteAttr_C C b (some at') ci
    have h3 := evalOther_C C toc
    simp only [evalContent]; split <;> first | exact h3 _ | close C
  | .list v items => by
    have h1 := evalItems_C toc v items
    have h2 := evalDescItems_C toc items
    have h3 := evalOther_C C toc
    simp only [evalContent]; split <;> first | exact h3 _ | close C
  | .section s => by
    have h1 := evalSect_C toc s
    have h3 := evalOther_C C toc
    simp only [evalContent]; split <;> first | exact h3 _ | close C
  | .table header rows footer => by
    have h3 := evalOther_C C toc
    have h1 := evalEdge_C .header header
    have h2 := evalBody_C rows
    have h4 := evalEdge_C .footer footer
    simp only [evalContent]; split <;> first | exact h3 _ | close C
  | .image t l => by
    have h3 := evalOther_C C toc
    simp only [evalContent]; split <;> first | exact h3 _ | close C
  | .audioVideo => by
    have h3 := evalOther_C C toc
    simp only [evalContent]; split <;> first | exact h3 _ | close C
  | .heading l ns => by
    have h3 := evalOther_C C toc
    simp only [evalContent]; split <;> first | exact h3 _ | close C
  | .declaration m => by
    have h3 := evalOther_C C toc
    simp only [evalContent]; split <;> first | exact h3 _ | close C
  | .empty => evalOther_C C toc _
theorem evalBlocks_C (toc : Option Toc) : ∀ bs : List Block, P (evalBlocks inl toc bs)
  | [] => C.nil
  | b :: bs => C.app (evalBlock_C toc b) (evalBlocks_C toc bs)
theorem evalItem_C (toc : Option Toc) (v : Variant) : ∀ i : Item, P (evalItem inl toc v i)
  | .plain p bs => C.app (C.around _ rfl (C.text p)) (C.around _ rfl (evalBlocks_C toc bs))
  | .desc p _ _ bs => C.app (C.around _ rfl (C.text p)) (C.around _ rfl (evalBlocks_C toc bs))
theorem evalItems_C (toc : Option Toc) (v : Variant) : ∀ is : List Item, P (evalItems inl toc v is)
  | [] => C.nil
  | i :: is => C.app (evalItem_C toc v i) (evalItems_C toc v is)
theorem evalDescItem_C (toc : Option Toc) : ∀ i : Item, P (evalDescItem inl toc i)
  | .plain _ _ => C.panic
  | .desc p ex none [] => C.app (evalTerms_C C 1 _) C.nil
  | .desc p ex none (b :: bs) => C.app (evalTerms_C C 1 _) (C.around _ rfl
      (C.app (C.around _ rfl (evalBlock_C toc b)) (evalDescBlocks_C toc bs)))
  | .desc p ex (some d) bs => C.app (evalTerms_C C 1 _) (C.around _ rfl
      (C.app (C.around _ rfl (evalBlock_C toc d)) (evalDescBlocks_C toc bs)))
theorem evalDescItems_C (toc : Option Toc) : ∀ is : List Item, P (evalDescItems inl toc is)
  | [] => C.nil
  | i :: is => C.app (evalDescItem_C toc i) (evalDescItems_C toc is)
theorem evalDescBlocks_C (toc : Option Toc) : ∀ bs : List Block, P (evalDescBlocks inl toc bs)
  | [] => C.nil
  | b :: bs => C.app (C.around _ rfl (evalBlock_C toc b)) (evalDescBlocks_C toc bs)
theorem evalSect_C (toc : Option Toc) : ∀ s : Sect, P (evalSect inl toc s)
  | .mk info h bs => C.around _ rfl (C.app (C.around _ rfl (C.text h)) (evalBlocks_C toc bs))
theorem evalSects_C (toc : Option Toc) : ∀ ss : List Sect, P (evalSects inl toc ss)
  | [] => C.nil
  | s :: ss => C.app (evalSect_C toc s) (evalSects_C toc ss)
theorem evalCell_C (s : TableSection) : ∀ c : Cell, P (evalCell inl s c)
  | .paragraphs style ps => C.around _ rfl (evalCellParagraphs_C C style s _ ps)
  | .literal ns => C.around _ rfl (C.text ns)
  | .asciidoc d => C.around _ rfl (C.cell (visit_C d))
theorem evalCells_C (s : TableSection) : ∀ cs : List Cell, P (evalCells inl s cs)
  | [] => C.nil
  | c :: cs => C.app (evalCell_C s c) (evalCells_C s cs)
theorem evalEdge_C (s : TableSection) : ∀ cs : Option (List Cell), P (evalEdge inl s cs)
  | none => C.nil
  | some cs => C.around _ rfl (C.around _ rfl (evalCells_C s cs))
theorem evalBody_C : ∀ rs : List (List Cell), P (evalBody inl rs)
  | [] => C.nil
  | r :: rs => C.around _ rfl (C.app (C.around _ rfl (evalCells_C .body r)) (evalRows_C rs))
theorem evalRows_C : ∀ rs : List (List Cell), P (evalRows inl rs)
  | [] => C.nil
  | r :: rs => C.app (C.around _ rfl (evalCells_C .body r)) (evalRows_C rs)
theorem evalPart_C (toc : Option Toc) : ∀ p : Part, P (evalPart inl toc p)
  | .mk t bt none ss => by
    have h2 := evalSects_C toc ss
    simp only [evalPart]; close C
  | .mk t none (some bs) ss => by
    have h2 := evalSects_C toc ss
    have h3 := evalBlocks_C toc bs
    simp only [evalPart]; close C
  | .mk t (some ns) (some bs) ss => by
    have h2 := evalSects_C toc ss
    have h3 := evalBlocks_C toc bs
    simp only [evalPart]; close C
theorem evalParts_C (toc : Option Toc) : ∀ ps : List Part, P (evalParts inl toc ps)
  | [] => C.nil
  | p :: ps => C.app (evalPart_C toc p) (evalParts_C toc ps)
theorem evalDocContent_C (toc : Option Toc) (t : Bool) : ∀ c : DocContent, P (evalDocContent inl toc t c)
  | .blocks bs => evalBlocks_C toc bs
  | .sections none ss => evalSects_C toc ss
  | .sections (some bs) ss => by
    have h1 := evalBlocks_C toc bs
    have h2 := evalSects_C toc ss
    have h3 := evalTocAt_C C toc [.preamble]
    simp only [evalDocContent]; close C
  | .parts none o ps c => C.app (C.app (evalSects_C toc o) (evalParts_C toc ps)) (evalSects_C toc c)
  | .parts (some bs) o ps c => by
    have h1 := evalBlocks_C toc bs
    have h2 := evalSects_C toc o
    have h3 := evalTocAt_C C toc [.preamble]
    have h4 := evalParts_C toc ps
    have h5 := evalSects_C toc c
    simp only [evalDocContent]; close C
theorem visit_C : ∀ d : Doc, P (visit inl d)
  | .mk attrs title toc head header footer content => by
    have h1 := evalTocAt_C C toc [.auto, .left, .right]
    have h2 := evalDocContent_C toc title.isSome content
    have hd := evalDocinfo_C C attrs.embedded
    have ht := evalDocTitle_C C title
    simp only [visit]
    repeat' (first | exact hd _ | exact ht | exact h1 | exact h2 | exact C.nil | refine C.around _ rfl ?_ | refine C.app ?_ ?_)
end
end

end Verif.Eval

import Verif.Spec.Eval
/-! Lemmas about the evaluator: nesting. -/
set_option linter.unusedSectionVars false
set_option linter.unusedVariables false
namespace Verif.Eval
open Verif.Ast Verif.Spec.Eval

/-- everything but the markers that are not calls, and but `enter_visible_index_term` -/
def clean (evs : List Ev) : List Ev := evs.filter fun e => e ≠ .panic ∧ e ≠ .bound ∧ e ≠ .enter .visibleTerm

def N (evs : List Ev) : Prop := Nested (clean evs)

theorem N_nil : N [] := Nested.nil
theorem N_panic : N [.panic] := Nested.nil
theorem N_bound : N [.bound] := Nested.nil
theorem N_term : N [.enter .visibleTerm] := Nested.nil
theorem N_visit (v : Visit) : N [.visit v] := by
  have : clean [.visit v] = [.visit v] := by simp [clean]
  rw [N, this]; exact .visit v
theorem N_append {a b : List Ev} (ha : N a) (hb : N b) : N (a ++ b) := by
  rw [N, clean, List.filter_append]; exact .append ha hb
theorem N_around (c : Call) (hc : c ≠ .visibleTerm) {a : List Ev} (ha : N a) : N (around c a) := by
  have : clean (around c a) = .enter c :: (clean a ++ [.exit c]) := by
    simp [clean, around, hc]
  rw [N, this]; exact .pair c ha

macro "nest" : tactic => `(tactic| repeat' (first
  | assumption
  | exact N_nil | exact N_panic | exact N_bound | exact N_visit _
  | refine N_around _ (by intro h; cases h) ?_
  | refine N_append ?_ ?_
  | split))

theorem xrefInner_N (env : Env) (jump : Jump) (hj : ∀ ns f, N (jump ns f).1) (t : Text) (own : Option (Bool × List Ev))
    (ho : ∀ p, own = some p → N p.2) (f : Bool) : N (xrefInner env jump t own f) := by
  have hm : N [.visit (.missingXref t)] := N_visit _
  have hs : ∀ (b : Bool) (evs : List Ev), N evs → N (around (.xrefText b) evs) := fun b evs h => N_around _ (by intro h; cases h) h
  unfold xrefInner
  cases f with
  | true => exact hm
  | false =>
    cases env.anchors t with
    | none =>
      cases own with
      | none => exact hm
      | some p => exact hs _ _ (ho p rfl)
    | some a =>
      obtain ⟨reftext, title, bib⟩ := a
      cases reftext with
      | none =>
        cases own with
        | none => dsimp only; repeat' (first | exact hm | (apply hs; apply hj) | split)
        | some p =>
          have hp := ho p rfl
          obtain ⟨e, evs⟩ := p
          dsimp only at hp ⊢; repeat' (first | exact hm | (apply hs; exact hp) | split)
      | some text =>
        cases own with
        | none => dsimp only; repeat' (first | exact hm | (apply hs; apply hj) | split)
        | some p =>
          have hp := ho p rfl
          obtain ⟨e, evs⟩ := p
          dsimp only at hp ⊢; repeat' (first | exact hm | (apply hs; apply hj) | (apply hs; exact hp) | split)

mutual
theorem evalInline_N (env : Env) (jump : Jump) (hj : ∀ ns f, N (jump ns f).1) : ∀ (n : Inline) (f : Bool), N (evalInline env jump n f).1
  | .leaf l, f => N_visit _
  | .skipped, f => N_nil
  | .wrap k ns, f => N_around _ (by intro h; cases h) (evalInlines_N env jump hj ns f)
  | .footnote id none, f => N_around _ (by intro h; cases h) N_nil
  | .footnote id (some ns), f => N_around _ (by intro h; cases h) (evalInlines_N env jump hj ns f)
  | .link none, f => N_around _ (by intro h; cases h) N_nil
  | .link (some ns), f => N_around _ (by intro h; cases h) (evalInlines_N env jump hj ns f)
  | .mailto none, f => N_around _ (by intro h; cases h) N_nil
  | .mailto (some ns), f => N_around _ (by intro h; cases h) (evalInlines_N env jump hj ns f)
  | .xref t none, f => N_around _ (by intro h; cases h) (xrefInner_N env jump hj t none (fun _ h => (by cases h)) f)
  | .xref t (some ns), f => N_around _ (by intro h; cases h) (xrefInner_N env jump hj t _ (fun _ h => (by
      cases h; exact evalInlines_N env jump hj ns true)) f)
  | .visibleTerm ns, f => by
    simp only [evalInline]
    split
    · exact N_append (a := [.enter .visibleTerm]) N_term (evalInlines_N env jump hj ns f)
    · exact N_term
  | .concealedTerm p s t, f => by
    simp only [evalInline]
    have h1 := evalInlines_N env jump hj p f
    have h2 := evalTerm_N env jump hj .secondaryTerm (by intro h; cases h) s (evalInlines env jump p f).2
    have h3 := evalTerm_N env jump hj .tertiaryTerm (by intro h; cases h) t (evalTerm env jump .secondaryTerm s (evalInlines env jump p f).2).2
    nest
theorem evalInlines_N (env : Env) (jump : Jump) (hj : ∀ ns f, N (jump ns f).1) : ∀ (ns : List Inline) (f : Bool), N (evalInlines env jump ns f).1
  | [], f => N_nil
  | n :: ns, f => N_append (evalInline_N env jump hj n f) (evalInlines_N env jump hj ns _)
theorem evalTerm_N (env : Env) (jump : Jump) (hj : ∀ ns f, N (jump ns f).1) (c : Call) (hc : c ≠ .visibleTerm) :
    ∀ (ns : Option (List Inline)) (f : Bool), N (evalTerm env jump c ns f).1
  | none, f => N_nil
  | some ns, f => N_around _ hc (evalInlines_N env jump hj ns f)
end

theorem evalJump_N (env : Env) : ∀ (n : Nat) (ns : List Inline) (f : Bool), N (evalJump env n ns f).1
  | 0, _, _ => N_bound
  | n + 1, ns, f => evalInlines_N env _ (evalJump_N env n) ns f

theorem inlines_N (env : Env) (n : Nat) (ns : List Inline) : N (inlines env n ns) :=
  evalInlines_N env _ (evalJump_N env n) ns false

section
variable (inl : List Inline → List Ev) (hi : ∀ ns, N (inl ns))
include hi

theorem simple_N (b : BlockInfo) (ns : List Inline) : N (simple inl b ns) := N_around _ (by intro h; cases h) (hi ns)

theorem evalQuoteAttr_N (b : BlockInfo) (a c : Option (List Inline)) : N (evalQuoteAttr inl b a c) := by
  have := hi
  cases a <;> cases c <;> simp only [evalQuoteAttr] <;> repeat' (first | exact hi _ | exact N_nil | refine N_around _ (by intro h; cases h) ?_ | refine N_append ?_ ?_)

mutual
theorem evalTocNode_N : ∀ t : TocNode, N (evalTocNode inl t)
  | .mk _ title [] => by
    have := hi title
    simp only [evalTocNode]; nest
  | .mk _ title (c :: cs) => by
    have := hi title
    have h1 := evalTocNode_N c
    have h2 := evalTocNodes_N cs
    simp only [evalTocNode]; nest
theorem evalTocNodes_N : ∀ ts : List TocNode, N (evalTocNodes inl ts)
  | [] => N_nil
  | t :: ts => N_append (evalTocNode_N t) (evalTocNodes_N ts)
end

theorem evalTocAt_N (toc : Option Toc) (ps : List TocPosition) : N (evalTocAt inl toc ps) := by
  cases toc with
  | none => exact N_nil
  | some t =>
    have := evalTocNodes_N inl hi t.nodes
    simp only [evalTocAt]; nest

theorem evalTitle_N (b : BlockInfo) (t : Option (List Inline)) : N (evalTitle inl b t) := by
  cases t with
  | none => exact N_nil
  | some ns => exact N_around _ (by intro h; cases h) (hi ns)

theorem evalTerms_N : ∀ (i : Nat) (ts : List (List Inline)), N (evalTerms inl i ts)
  | _, [] => N_nil
  | i, t :: ts => N_append (N_around _ (by intro h; cases h) (hi t)) (evalTerms_N (i + 1) ts)

theorem evalCellParagraphs_N (style : CellStyle) (s : TableSection) (m : Bool) : ∀ ps : List (List Inline), N (evalCellParagraphs inl style s m ps)
  | [] => N_nil
  | p :: ps => N_append (N_around _ (by intro h; cases h) (hi p)) (evalCellParagraphs_N style s m ps)

theorem evalOther_N (toc : Option Toc) (c : Context) : N (evalOther inl toc c) := by
  have := evalTocAt_N inl hi toc [.byMacro]
  unfold evalOther; nest

theorem evalDocinfo_N (e : Bool) (f : Option (List Inline)) : N (evalDocinfo inl e f) := by
  cases f with
  | none => exact N_nil
  | some ns => have := hi ns; simp only [evalDocinfo]; nest

theorem evalDocTitle_N (t : Option (List Inline)) : N (evalDocTitle inl t) := by
  cases t with
  | none => exact N_nil
  | some ns => exact N_around _ (by intro h; cases h) (hi ns)

mutual
theorem evalBlock_N (toc : Option Toc) : ∀ b : Block, N (evalBlock inl toc b)
  | .mk info title a c content => N_append (evalTitle_N inl hi _ _) (evalContent_N toc _ a c content)
theorem evalContent_N (toc : Option Toc) (b : BlockInfo) (a c : Option (List Inline)) : ∀ x : Content, N (evalContent inl toc b a c x)
  | .simple ns => by
    have h1 := simple_N inl hi b ns
    have h2 := evalQuoteAttr_N inl hi b a c
    have h3 := evalOther_N inl hi toc
    have h4 := hi ns
    simp only [evalContent]; split <;> first | exact h3 _ | nest
  | .compound bs => by
    have h1 := evalBlocks_N toc bs
    have h2 := evalQuoteAttr_N inl hi b a c
    have h3 := evalOther_N inl hi toc
    simp only [evalContent]; split <;> first | exact h3 _ | nest
  | .quoted q at' ci => by
    have h1 := hi q
    have h2 := evalQuoteAttr_N inl hi b (some at') ci
    have h3 := evalOther_N inl hi toc
    simp only [evalContent]; split <;> first | exact h3 _ | nest
  | .list v items => by
    have h1 := evalItems_N toc v items
    have h2 := evalDescItems_N toc items
    have h3 := evalOther_N inl hi toc
    simp only [evalContent]; split <;> first | exact h3 _ | nest
  | .section s => by
    have h1 := evalSect_N toc s
    have h3 := evalOther_N inl hi toc
    simp only [evalContent]; split <;> first | exact h3 _ | nest
  | .table header rows footer => by
    have h3 := evalOther_N inl hi toc
    have h1 := evalEdge_N .header header
    have h2 := evalBody_N rows
    have h4 := evalEdge_N .footer footer
    simp only [evalContent]; split <;> first | exact h3 _ | nest
  | .image t l => by
    have h3 := evalOther_N inl hi toc
    simp only [evalContent]; split <;> first | exact h3 _ | nest
  | .audioVideo => by
    have h3 := evalOther_N inl hi toc
    simp only [evalContent]; split <;> first | exact h3 _ | nest
  | .heading l ns => by
    have h1 := hi ns
    have h3 := evalOther_N inl hi toc
    simp only [evalContent]; split <;> first | exact h3 _ | nest
  | .declaration m => by
    have h3 := evalOther_N inl hi toc
    simp only [evalContent]; split <;> first | exact h3 _ | nest
  | .empty => evalOther_N inl hi toc _
theorem evalBlocks_N (toc : Option Toc) : ∀ bs : List Block, N (evalBlocks inl toc bs)
  | [] => N_nil
  | b :: bs => N_append (evalBlock_N toc b) (evalBlocks_N toc bs)
theorem evalItem_N (toc : Option Toc) (v : Variant) : ∀ i : Item, N (evalItem inl toc v i)
  | .plain p bs => N_append (N_around _ (by intro h; cases h) (hi p)) (N_around _ (by intro h; cases h) (evalBlocks_N toc bs))
  | .desc p _ _ bs => N_append (N_around _ (by intro h; cases h) (hi p)) (N_around _ (by intro h; cases h) (evalBlocks_N toc bs))
theorem evalItems_N (toc : Option Toc) (v : Variant) : ∀ is : List Item, N (evalItems inl toc v is)
  | [] => N_nil
  | i :: is => N_append (evalItem_N toc v i) (evalItems_N toc v is)
theorem evalDescItem_N (toc : Option Toc) : ∀ i : Item, N (evalDescItem inl toc i)
  | .plain _ _ => N_panic
  | .desc p ex none [] => N_append (evalTerms_N inl hi 1 _) N_nil
  | .desc p ex none (b :: bs) => N_append (evalTerms_N inl hi 1 _) (N_around _ (by intro h; cases h)
      (N_append (N_around _ (by intro h; cases h) (evalBlock_N toc b)) (evalDescBlocks_N toc bs)))
  | .desc p ex (some d) bs => N_append (evalTerms_N inl hi 1 _) (N_around _ (by intro h; cases h)
      (N_append (N_around _ (by intro h; cases h) (evalBlock_N toc d)) (evalDescBlocks_N toc bs)))
theorem evalDescItems_N (toc : Option Toc) : ∀ is : List Item, N (evalDescItems inl toc is)
  | [] => N_nil
  | i :: is => N_append (evalDescItem_N toc i) (evalDescItems_N toc is)
theorem evalDescBlocks_N (toc : Option Toc) : ∀ bs : List Block, N (evalDescBlocks inl toc bs)
  | [] => N_nil
  | b :: bs => N_append (N_around _ (by intro h; cases h) (evalBlock_N toc b)) (evalDescBlocks_N toc bs)
theorem evalSect_N (toc : Option Toc) : ∀ s : Sect, N (evalSect inl toc s)
  | .mk info h bs => N_around _ (by intro h; cases h) (N_append (N_around _ (by intro h; cases h) (hi h)) (evalBlocks_N toc bs))
theorem evalSects_N (toc : Option Toc) : ∀ ss : List Sect, N (evalSects inl toc ss)
  | [] => N_nil
  | s :: ss => N_append (evalSect_N toc s) (evalSects_N toc ss)
theorem evalCell_N (s : TableSection) : ∀ c : Cell, N (evalCell inl s c)
  | .paragraphs style ps => N_around _ (by intro h; cases h) (evalCellParagraphs_N inl hi style s _ ps)
  | .literal ns => N_around _ (by intro h; cases h) (hi ns)
  | .asciidoc d => N_around _ (by intro h; cases h) (N_around _ (by intro h; cases h) (visit_N d))
theorem evalCells_N (s : TableSection) : ∀ cs : List Cell, N (evalCells inl s cs)
  | [] => N_nil
  | c :: cs => N_append (evalCell_N s c) (evalCells_N s cs)
theorem evalEdge_N (s : TableSection) : ∀ cs : Option (List Cell), N (evalEdge inl s cs)
  | none => N_nil
  | some cs => N_around _ (by intro h; cases h) (N_around _ (by intro h; cases h) (evalCells_N s cs))
theorem evalBody_N : ∀ rs : List (List Cell), N (evalBody inl rs)
  | [] => N_nil
  | r :: rs => N_around _ (by intro h; cases h) (N_append (N_around _ (by intro h; cases h) (evalCells_N .body r)) (evalRows_N rs))
theorem evalRows_N : ∀ rs : List (List Cell), N (evalRows inl rs)
  | [] => N_nil
  | r :: rs => N_append (N_around _ (by intro h; cases h) (evalCells_N .body r)) (evalRows_N rs)
theorem evalPart_N (toc : Option Toc) : ∀ p : Part, N (evalPart inl toc p)
  | .mk t bt none ss => by
    have h1 := hi t
    have h2 := evalSects_N toc ss
    simp only [evalPart]; nest
  | .mk t none (some bs) ss => by
    have h1 := hi t
    have h2 := evalSects_N toc ss
    have h3 := evalBlocks_N toc bs
    simp only [evalPart]; nest
  | .mk t (some ns) (some bs) ss => by
    have h1 := hi t
    have h2 := evalSects_N toc ss
    have h3 := evalBlocks_N toc bs
    have h4 := hi ns
    simp only [evalPart]; nest
theorem evalParts_N (toc : Option Toc) : ∀ ps : List Part, N (evalParts inl toc ps)
  | [] => N_nil
  | p :: ps => N_append (evalPart_N toc p) (evalParts_N toc ps)
theorem evalDocContent_N (toc : Option Toc) (t : Bool) : ∀ c : DocContent, N (evalDocContent inl toc t c)
  | .blocks bs => evalBlocks_N toc bs
  | .sections none ss => evalSects_N toc ss
  | .sections (some bs) ss => by
    have h1 := evalBlocks_N toc bs
    have h2 := evalSects_N toc ss
    have h3 := evalTocAt_N inl hi toc [.preamble]
    simp only [evalDocContent]; nest
  | .parts none o ps c => N_append (N_append (evalSects_N toc o) (evalParts_N toc ps)) (evalSects_N toc c)
  | .parts (some bs) o ps c => by
    have h1 := evalBlocks_N toc bs
    have h2 := evalSects_N toc o
    have h3 := evalTocAt_N inl hi toc [.preamble]
    have h4 := evalParts_N toc ps
    have h5 := evalSects_N toc c
    simp only [evalDocContent]; nest
theorem visit_N : ∀ d : Doc, N (visit inl d)
  | .mk attrs title toc head header footer content => by
    have h1 := evalTocAt_N inl hi toc [.auto, .left, .right]
    have h2 := evalDocContent_N toc title.isSome content
    have h3 := hi
    have hd := evalDocinfo_N inl hi attrs.embedded
    have ht := evalDocTitle_N inl hi title
    simp only [visit]
    repeat' (first | exact hd _ | exact ht | exact h1 | exact h2 | exact N_nil | refine N_around _ (by intro h; cases h) ?_ | refine N_append ?_ ?_)
end
end

theorem trace_N (env : Env) (n : Nat) (d : Doc) : N (trace env n d) := visit_N _ (inlines_N env n) d

end Verif.Eval

import Verif.Lemmas.Html5s
import Verif.Spec.Html5s
/-! Well bracketed output of the semantic HTML backend. -/
set_option linter.unusedSectionVars false
set_option linter.unusedVariables false
set_option linter.unusedSimpArgs false
namespace Verif.Html5s
open Verif.Ast Verif.Eval Verif.Html Verif.Spec.Html Verif.Spec.Html5s
open Verif.Html.Bal (chk chk_append Neutral chk_frame balanced_iff chk_openings chk_closings takeCaption_keeps)

/-- what is known of the state at a place in a document; `none`: nothing -/
structure Cfg where
  embedded : Bool
  inline : Bool
  cell : Option Bool
  /-- in the preamble -/
  pre : Bool

/-- The state agrees with it; the elements `k` are open; `p`: the title of a block waits in
the second buffer. -/
structure At (c : Cfg) (o : List Frame) (p : Bool) (s : State) (k : List Tag) : Prop where
  emb : s.cur.attrs.embedded = c.embedded
  inl : s.cur.attrs.inlineDoctype = c.inline
  cel : ∀ b, c.cell = some b → s.cur.inCell = b
  src : s.cur.source = false
  alt : c.pre = true → p = false → s.cur.alt = []
  neu : Neutral s.cur.alt
  foot : ∀ f ∈ s.footnotes, Neutral f.2
  out : s.outer = o
  stk : chk s.cur.html [] = some k

variable {c : Cfg} {o : List Frame} {p q : Bool} {s : State} {k : List Tag}

theorem At.push (h : At c o p s k) {ts : List Tok} {l : List Tag} (e : chk ts k = some l) : At c o p (s.push ts) l :=
  { h with stk := by show chk (s.cur.html ++ ts) [] = _; rw [chk_append, h.stk]; exact e }
theorem At.pushIf (h : At c o p s k) {b : Bool} {ts : List Tok} {l : List Tag} (e : chk (if b then ts else []) k = some l) : At c o p (s.pushIf b ts) l := by
  cases b with
  | true => exact h.push e
  | false => cases e; exact h
theorem At.pushA (h : At c o p s k) {ts : List Tok} (e : (chk ts k).isSome = true) : At c o p (s.push ts) ((chk ts k).getD []) := by
  obtain ⟨l, hl⟩ := Option.isSome_iff_exists.1 e
  rw [hl]; exact h.push hl
theorem At.pushIfA (h : At c o p s k) {b : Bool} {ts : List Tok} (e : (chk (if b then ts else []) k).isSome = true) :
    At c o p (s.pushIf b ts) ((chk (if b then ts else []) k).getD []) := by
  obtain ⟨l, hl⟩ := Option.isSome_iff_exists.1 e
  rw [hl]; exact h.pushIf hl
theorem At.cast {l : List Tag} (h : At c o p s k) (e : k = l) : At c o p s l := e ▸ h
theorem At.same (h : At c o p s k) : At c o p s k := h

/-- a title that is not waited for any more -/
theorem At.drop (h : At c o p s k) (e : c.pre = true → p = false) : At c o false s k := { h with alt := fun a _ => h.alt a (e a) }
theorem At.pend (h : At c o false s k) : At c o p s k := { h with alt := fun a _ => h.alt a rfl }

theorem neutral_renders (f : Frame) (title : List Tok) (hn : Neutral title) (b : BlockInfo) (h6 : Bool) :
    ∃ w, renderBlockTitle f title b h6 = (takeCaption f b).2.push w ∧ Neutral w := by
  have hc := (takeCaption_keeps f b).2.2.2.2.2.2.2.2.2
  have h1 : Neutral (if isCaption b.context then [.opening .figcaption] ++ (takeCaption f b).1 ++ title ++ [.closing .figcaption] else (takeCaption f b).1 ++ title) := by
    split
    · simpa using (hc.append hn).element .figcaption
    · exact hc.append hn
  refine ⟨_, rfl, ?_⟩
  cases h6 with
  | true => simpa using h1.element (.h 6)
  | false => simpa using h1

theorem At.renderTitle (h : At c o p s k) {title : List Tok} (hn : Neutral title) (b : BlockInfo) (h6 : Bool) :
    At c o p { s with cur := renderBlockTitle s.cur title b h6 } k := by
  obtain ⟨w, e, hw⟩ := neutral_renders s.cur title hn b h6
  obtain ⟨h1, h2, h3, h4, h5, h6', h7, h8, h9, h10⟩ := takeCaption_keeps s.cur b
  rw [e]
  refine ⟨?_, ?_, ?_, ?_, ?_, ?_, h.foot, h.out, ?_⟩
  · show (takeCaption s.cur b).2.attrs.embedded = _; rw [h3]; exact h.emb
  · show (takeCaption s.cur b).2.attrs.inlineDoctype = _; rw [h3]; exact h.inl
  · intro x hx; show (takeCaption s.cur b).2.inCell = _; rw [h5]; exact h.cel x hx
  · show (takeCaption s.cur b).2.source = _; rw [h9]; exact h.src
  · intro x y; show (takeCaption s.cur b).2.alt = _; rw [h2]; exact h.alt x y
  · show Neutral (takeCaption s.cur b).2.alt; rw [h2]; exact h.neu
  · show chk ((takeCaption s.cur b).2.html ++ w) [] = _
    rw [h1, chk_append, h.stk]; exact hw k

theorem At.noAlt (h : At c o p s k) : At c o q s.discardAlt k := ⟨h.emb, h.inl, h.cel, h.src, fun _ _ => rfl, .nil, h.foot, h.out, h.stk⟩

theorem At.title {b : BlockInfo} {h6 : Bool} (h : At c o b.hasTitle s k) : At c o false (bufferedTitle s b h6) k := by
  unfold bufferedTitle
  cases hb : b.hasTitle with
  | false => rw [hb] at h; exact h
  | true => exact At.renderTitle (s := s.discardAlt) h.noAlt h.neu b h6
theorem At.titleAgain {b : BlockInfo} {h6 : Bool} (h : At c o false s k) : At c o false (bufferedTitle s b h6) k := At.title h.pend

theorem At.ext (h : At c o p s k) {seg : List Tok} {fs : List (Option Text × List Tok)} (hs : Neutral seg) (hf : ∀ f ∈ fs, Neutral f.2) : At c o p (s.ext seg fs) k :=
  ⟨h.emb, h.inl, h.cel, h.src, h.alt, h.neu, by
    intro f hm
    rcases List.mem_append.1 hm with h1 | h1
    · exact h.foot f h1
    · exact hf f h1, h.out, by show chk (s.cur.html ++ seg) [] = _; rw [chk_append, h.stk]; exact hs k⟩

/-- running the calls turns the open elements `a` into `b` -/
def T (c : Cfg) (p q : Bool) (evs : List Ev) (a b : List Tag) : Prop :=
  ∀ o s t k, At c o p s (a ++ k) → run evs s = some t → At c o q t (b ++ k)

theorem T_nil (a : List Tag) : T c p p [] a a := by intro o s t k h e; cases e; exact h
theorem T_append {r : Bool} {x y : List Ev} {a b d : List Tag} (h : T c p q x a b) (k : T c q r y b d) : T c p r (x ++ y) a d := by
  intro o s t l hs e
  obtain ⟨u, e1, e2⟩ := run_append_some e
  exact k o u t l (h o s u l hs e1) e2
theorem T_frame {x : List Ev} {a b : List Tag} (h : T c p q x a b) (d : List Tag) : T c p q x (a ++ d) (b ++ d) := by
  intro o s t l hs e
  rw [List.append_assoc] at hs ⊢
  exact h o s t _ hs e
theorem T_keep {x : List Ev} (h : T c p q x [] []) (d : List Tag) : T c p q x d d := T_frame h d
theorem T_two {r : Bool} {x y : List Ev} {a : List Tag} (h : T c p q x [] []) (k : T c q r y [] []) : T c p r (x ++ y) a a := T_append (T_keep h a) (T_keep k a)

theorem T_around {q' r : Bool} {l : Call} {x : List Ev} {a b d e : List Tag} (h1 : T c p q [.enter l] a b) (h2 : T c q q' x b d) (h3 : T c q' r [.exit l] d e) :
    T c p r (around l x) a e := T_append h1 (T_append h2 h3)

theorem T_I {evs : List Ev} (h : I evs) (a : List Tag) : T c p p evs a a := by
  intro o s t l hs e
  obtain ⟨seg, fs, rfl, h1, h2⟩ := run_I h s t e
  exact hs.ext (Bal.Seg.neutral h1) (fun f hf => Bal.Seg.neutral (h2 f hf))

/-- one call that writes fixed output -/
macro "writes" : tactic => `(tactic| (
  intro o s t k h e
  rw [run_one] at e
  simp only [step, enter, exit, visitCall, Html.enter, Html.exit] at e
  cases e
  with_reducible apply At.cast
  repeat (first
    | (with_reducible exact h)
    | (with_reducible apply At.title)
    | (with_reducible apply At.pushA)
    | (with_reducible apply At.pushIfA))
  all_goals try (simp [chk, *]; done)))

theorem e_sidebar (b : BlockInfo) : T c b.hasTitle false [.enter (.sidebar b)] [] [.aside] := by writes
theorem x_sidebar (b : BlockInfo) : T c false false [.exit (.sidebar b)] [.aside] [] := by writes
theorem e_literal (b : BlockInfo) : T c b.hasTitle false [.enter (.literal b)] [] [.pre, box .section b] := by writes
theorem x_literal (b : BlockInfo) : T c false false [.exit (.literal b)] [.pre, box .section b] [] := by writes
theorem e_admonition (b : BlockInfo) (m : Bool) : T c b.hasTitle false [.enter (.admonition b m)] [] ((if m then [] else [.p]) ++ [admonitionTag b]) := by
  intro o s t k h e
  rw [run_one] at e
  simp only [step, enter] at e
  cases e
  apply At.titleAgain
  refine At.pushIf (k := admonitionTag b :: k) (At.push (k := .h 6 :: admonitionTag b :: k) (At.title (At.push h (by simp [chk]))) (by simp [chk])) ?_
  cases m <;> simp [chk]
theorem x_admonition (b : BlockInfo) (m : Bool) : T c false false [.exit (.admonition b m)] ((if m then [] else [.p]) ++ [admonitionTag b]) [] := by
  cases m <;> writes
theorem e_openBlock (b : BlockInfo) : T c b.hasTitle false [.enter (.openBlock b)] [] (if b.isAbstract then [.blockquote, box .section b] else [.div, .div]) := by
  cases hb : b.isAbstract <;> intro o s t k h e <;> rw [run_one] at e <;> simp only [step, enter, hb, if_true, if_false, Bool.false_eq_true] at e ⊢ <;> cases e <;>
    exact At.push (At.title (At.push h (by simp [chk]; rfl))) (by simp [chk])
theorem x_openBlock (b : BlockInfo) : T c false false [.exit (.openBlock b)] (if b.isAbstract then [.blockquote, box .section b] else [.div, .div]) [] := by
  cases hb : b.isAbstract <;> intro o s t k h e <;> rw [run_one] at e <;> simp only [step, exit, hb, if_true, if_false, Bool.false_eq_true] at e h <;> cases e <;>
    exact At.push h (by simp [chk])
theorem e_example (b : BlockInfo) : T c b.hasTitle false [.enter (.example b)] [] [.div, if b.collapsible then .details else box .figure b] := by
  cases hb : b.collapsible <;> intro o s t k h e <;> rw [run_one] at e <;> simp only [step, enter, hb, if_true, if_false, Bool.false_eq_true] at e ⊢ <;> cases e
  · exact At.push (At.title (At.push h (by simp [chk]; rfl))) (by simp [chk])
  · refine At.push (k := .details :: k) ?_ (by simp [chk])
    have h1 : At c o b.hasTitle (s.push [.opening .details]) (.details :: k) := h.push (by simp [chk])
    cases ht : b.hasTitle with
    | false => rw [ht] at h1; exact h1
    | true =>
      refine At.push h1.noAlt ?_
      have := h1.neu.element .summary
      simpa using this (.details :: k)
theorem x_example (b : BlockInfo) : T c false false [.exit (.example b)] [.div, if b.collapsible then .details else box .figure b] [] := by writes
theorem e_quote (b : BlockInfo) (m : Bool) : T c b.hasTitle false [.enter (.quote b m)] [] [.blockquote, box .section b] := by writes
theorem x_quote (b : BlockInfo) (m : Bool) : T c false false [.exit (.quote b m)] [.blockquote, box .section b] [] := by writes
theorem e_verse (b : BlockInfo) (m : Bool) (hb : b.hasTitle = false) : T c false false [.enter (.verse b m)] [] (.pre :: if m then [.blockquote, .div] else [.div]) := by
  cases m <;> intro o s t k h e <;> rw [run_one] at e <;> simp only [step, enter, bufferedTitle, hb, if_true, if_false, Bool.false_eq_true] at e ⊢ <;> cases e
  · exact At.push (At.push h (by simp [chk]; rfl)) (by simp [chk])
  · exact At.push (At.push (At.push h (by simp [chk]; rfl)) (by simp [chk]; rfl)) (by simp [chk])
theorem x_verse (b : BlockInfo) (m : Bool) (hb : b.hasTitle = false) : T c false false [.exit (.verse b m)] (if m then [.blockquote, .div] else [.div]) [] := by
  cases m <;> simp only [box, hb, if_true, if_false, Bool.false_eq_true] <;> writes <;> simp [box, hb, chk]
theorem e_quotedParagraph (b : BlockInfo) : T c b.hasTitle false [.enter (.quotedParagraph b)] [] [.p, .blockquote, .div] := by writes
theorem x_quotedParagraph (b : BlockInfo) : T c false false [.exit (.quotedParagraph b)] [.blockquote, .div] [] := by writes
theorem e_attribution (b : BlockInfo) (m : Bool) :
    T c false false [.enter (.quoteAttribution b m)] (if b.context = .quotedParagraph then [.p] else []) [.cite, .footer] := by
  by_cases hb : b.context = .quotedParagraph <;> simp only [hb, if_true, if_false] <;> writes
theorem x_attribution (b : BlockInfo) (m : Bool) : T c false false [.exit (.quoteAttribution b m)] [.cite, .footer] (if m then [.cite, .footer] else []) := by
  cases m <;> writes
theorem e_cite (b : BlockInfo) (m : Bool) : T c false false [.enter (.quoteCite b m)] (if m then [.cite, .footer] else []) [.cite, .footer] := by
  cases m <;> writes
theorem x_cite (b : BlockInfo) (m : Bool) : T c false false [.exit (.quoteCite b m)] [.cite, .footer] [] := by writes
theorem e_ulist (b : BlockInfo) : T c b.hasTitle false [.enter (.unorderedList b)] [] (.ul :: if b.depth = 1 then [box .section b] else []) := by
  by_cases hb : b.depth = 1 <;> simp only [hb, if_true, if_false] <;> writes
theorem x_ulist (b : BlockInfo) : T c false false [.exit (.unorderedList b)] (.ul :: if b.depth = 1 then [box .section b] else []) [] := by
  by_cases hb : b.depth = 1 <;> simp only [hb, if_true, if_false] <;> writes
theorem e_olist (b : BlockInfo) : T c b.hasTitle false [.enter (.orderedList b)] [] (.ol :: if b.depth = 1 then [box .section b] else []) := by
  by_cases hb : b.depth = 1 <;> simp only [hb, if_true, if_false] <;> writes
theorem x_olist (b : BlockInfo) : T c false false [.exit (.orderedList b)] (.ol :: if b.depth = 1 then [box .section b] else []) [] := by
  by_cases hb : b.depth = 1 <;> simp only [hb, if_true, if_false] <;> writes
theorem e_dlist (b : BlockInfo) : T c b.hasTitle false [.enter (.descriptionList b)] [] (.dl :: if b.depth = 1 then [box .section b] else []) := by
  by_cases hb : b.depth = 1 <;> simp only [hb, if_true, if_false] <;> writes
theorem x_dlist (b : BlockInfo) : T c false false [.exit (.descriptionList b)] (.dl :: if b.depth = 1 then [box .section b] else []) [] := by
  by_cases hb : b.depth = 1 <;> simp only [hb, if_true, if_false] <;> writes
theorem x_clist (b : BlockInfo) : T c false false [.exit (.calloutList b)] [.ol, .div] [] := by writes
theorem e_term (n : Nat) : T c false false [.enter (.term n)] [] [.dt] := by writes
theorem x_term (n : Nat) : T c false false [.exit (.term n)] [.dt] [] := by writes
theorem e_description : T c false false [.enter .description] [] [.dd] := by writes
theorem x_description : T c false false [.exit .description] [.dd] [] := by writes
theorem e_principal (v : Variant) (m : Bool) : T c false false [.enter (.itemPrincipal v m)] [] (if m then [.p, .li] else [.li]) := by cases m <;> writes
theorem x_principal (v : Variant) (m : Bool) : T c false false [.exit (.itemPrincipal v m)] (if m then [.p, .li] else [.li]) [.li] := by cases m <;> writes
theorem e_itemBlocks (v : Variant) : T c false false [.enter (.itemBlocks v)] [.li] [.li] := by writes
theorem x_itemBlocks (v : Variant) : T c false false [.exit (.itemBlocks v)] [.li] [] := by writes
theorem e_table (b : BlockInfo) : T c b.hasTitle false [.enter (.table b)] [] [.table, box .figure b] := by writes
theorem x_table (b : BlockInfo) : T c false false [.exit (.table b)] [.table, box .figure b] [] := by writes
theorem e_tsection (t : TableSection) : T c false false [.enter (.tableSection t)] [] [sectionTag t] := by writes
theorem x_tsection (t : TableSection) : T c false false [.exit (.tableSection t)] [sectionTag t] [] := by writes
theorem e_row : T c false false [.enter .row] [] [.tr] := by writes
theorem x_row : T c false false [.exit .row] [.tr] [] := by writes
theorem e_cell (k : CellKind) (t : TableSection) :
    T c false false [.enter (.cell k t)] [] ((if k = .literal then [.pre, .div] else []) ++ [if isTh k t then .th else .td]) := by
  by_cases hb : k = .literal <;> simp only [hb, if_true, if_false] <;> writes
theorem x_cell (k : CellKind) (t : TableSection) (hk : t = .header → k ≠ .literal) :
    T c false false [.exit (.cell k t)] ((if k = .literal then [.pre, .div] else []) ++ [if isTh k t then .th else .td]) [] := by
  intro o s u l h e
  rw [run_one] at e
  simp only [step, exit] at e
  cases ht : isTh k t with
  | true =>
    simp only [ht, if_true] at e h
    cases e
    have hl : k ≠ .literal := by
      simp only [isTh, Bool.or_eq_true, decide_eq_true_eq] at ht
      rcases ht with ht | ht
      · exact hk ht
      · rw [ht]; simp
    rw [if_neg hl] at h
    exact h.push (by simp [chk])
  | false =>
    simp only [ht, if_false, Bool.false_eq_true] at e h
    cases e
    by_cases hl : k = .literal
    · simp only [hl, if_true] at h ⊢; exact h.push (by simp [chk])
    · simp only [hl, if_false] at h ⊢; exact h.push (by simp [chk])
theorem e_cellParagraph (st : CellStyle) (t : TableSection) (m : Bool) :
    T c false false [.enter (.cellParagraph st t m)] [] ((styleTags st).reverse ++ if m then [.p] else []) := by
  intro o s u l h e
  rw [run_one] at e
  simp only [step, enter] at e
  cases e
  refine At.push (k := (if m then [.p] else []) ++ l) (At.pushIf h ?_) ?_
  · cases m <;> rfl
  · rw [chk_openings, List.append_assoc]
theorem x_cellParagraph (st : CellStyle) (t : TableSection) (m : Bool) (hk : t = .header → styleTags st = []) :
    T c false false [.exit (.cellParagraph st t m)] ((styleTags st).reverse ++ if m then [.p] else []) [] := by
  intro o s u l h e
  rw [run_one] at e
  simp only [step, exit] at e
  cases e
  refine At.pushIf (k := (if m then [.p] else []) ++ l) ?_ (by cases m <;> simp [chk])
  split
  · next ht =>
    rw [hk ht] at h
    exact h.push (by simp [chk])
  · rw [List.append_assoc] at h
    exact h.push (chk_closings _ _)
theorem e_image (b : BlockInfo) (t : Option Text) (l : Bool) : T c p p [.enter (.image b t l)] [] [imageTag b t] := by
  cases l <;> writes
theorem x_image (b : BlockInfo) (t : Option Text) (l : Bool) : T c b.hasTitle false [.exit (.image b t l)] [imageTag b t] [] := by
  intro o s u k h e
  rw [run_one] at e
  simp only [step, exit] at e
  cases e
  refine At.push (k := imageTag b t :: k) ?_ (by simp [chk])
  cases t with
  | none => exact At.title h
  | some t =>
    have h1 := At.renderTitle h (title := [.gen t]) (fun _ => rfl) b false
    cases hb : b.hasTitle with
    | true => exact h1.noAlt
    | false => rw [hb] at h1; exact h1
theorem e_section (i : SectInfo) : T c false false [.enter (.section i)] [] [.section] := by writes
theorem x_section (i : SectInfo) : T c false false [.exit (.section i)] [.section] [] := by writes
theorem e_part : T c false false [.enter .part] [] [.section] := by writes
theorem x_part : T c false false [.exit .part] [.section] [] := by writes
theorem e_partTitle : T c false false [.enter .partTitle] [] [.h 1] := by writes
theorem x_partTitle : T c false false [.exit .partTitle] [.h 1] [] := by writes
theorem e_partIntro (m : Bool) : T c false false [.enter (.partIntro m)] [] (if m then [.h 6, .section] else [.div]) := by cases m <;> writes
theorem x_partIntro (m : Bool) : T c false false [.exit (.partIntro m)] [if m then .section else .div] [] := by cases m <;> writes
theorem e_partIntroContent (m : Bool) : T c false false [.enter (.partIntroContent m)] (if m then [.h 6, .section] else [.div]) [.div, if m then .section else .div] := by cases m <;> writes
theorem x_partIntroContent (m : Bool) : T c false false [.exit (.partIntroContent m)] [.div] [] := by writes
theorem e_compound : T c false false [.enter .compoundContent] [] [] := by writes
theorem x_compound : T c false false [.exit .compoundContent] [] [] := by writes
theorem e_descBlock : T c false false [.enter .descriptionBlock] [] [] := by writes
theorem x_descBlock : T c false false [.exit .descriptionBlock] [] [] := by writes
theorem e_passthrough (b : BlockInfo) : T c p p [.enter (.passthrough b)] [] [] := by writes
theorem x_passthrough (b : BlockInfo) : T c p p [.exit (.passthrough b)] [] [] := by writes
theorem e_heading (n : Nat) : T c false false [.enter (.discreteHeading n)] [] [headingTag n] := by writes
theorem x_heading (n : Nat) : T c false false [.exit (.discreteHeading n)] [headingTag n] [] := by writes
theorem e_simple (b : BlockInfo) : T c p p [.enter (.simpleContent b)] [] (if b.context = .blockQuote then [.p] else []) := by
  by_cases hb : b.context = .blockQuote <;> simp only [hb, if_true, if_false] <;> writes
theorem x_simple (b : BlockInfo) : T c p p [.exit (.simpleContent b)] (if b.context = .blockQuote then [.p] else if b.context = .verse then [.pre] else []) [] := by
  by_cases hb : b.context = .blockQuote
  · simp only [hb, if_true, if_false]; writes
  · by_cases hv : b.context = .verse
    · simp only [hb, hv, if_true, if_false]; writes
    · simp only [hb, hv, if_true, if_false]; writes
theorem e_content : T c false false [.enter .content] [] (if c.embedded then [] else [.div]) := by
  intro o s t k h e
  rw [run_one] at e
  simp only [step, enter, Html.enter] at e
  cases e
  refine h.pushIf ?_
  rw [h.emb]
  cases c.embedded <;> simp [chk]
theorem x_content : T c false false [.exit .content] (if c.embedded then [] else [.div]) [] := by
  intro o s t k h e
  rw [run_one] at e
  simp only [step, exit, Html.exit] at e
  cases e
  refine h.pushIf ?_
  rw [h.emb]
  cases c.embedded <;> simp [chk]
theorem v_thematicBreak : T c p p [.visit .thematicBreak] [] [] := by writes
theorem v_pageBreak : T c p p [.visit .pageBreak] [] [] := by writes
theorem v_audio (b : BlockInfo) : T c b.hasTitle false [.visit (.audio b)] [] [] := by writes
theorem v_video (b : BlockInfo) : T c b.hasTitle false [.visit (.video b)] [] [] := by writes
theorem v_declaration (m : Meta) : T c p p [.visit (.declaration m)] [] [] := by
  intro o s t k h e
  rw [run_one] at e
  simp only [step, visitCall] at e
  cases e
  exact ⟨h.emb, h.inl, h.cel, h.src, h.alt, h.neu, h.foot, h.out, h.stk⟩
theorem e_descText (m : Bool) : T c false false [.enter (.descriptionText m)] [] [] := by
  intro o s t k h e
  rw [run_one] at e
  simp only [step, enter] at e
  cases m <;> cases e
  · exact h
  · exact ⟨h.emb, h.inl, h.cel, h.src, h.alt, h.neu, h.foot, h.out, h.stk⟩
theorem x_descText (m : Bool) : T c false false [.exit (.descriptionText m)] [] [] := by
  intro o s t k h e
  rw [run_one] at e
  simp only [step, exit, Html.exit] at e
  cases e
  exact ⟨h.emb, h.inl, h.cel, h.src, h.alt, h.neu, h.foot, h.out, h.stk⟩
theorem e_toc (pos : TocPosition) (hp : pos ≠ .preamble) : T c p p [.enter (.toc pos)] [] [.nav] := by
  intro o s t k h e
  rw [run_one] at e
  simp only [step, enter, if_neg hp, Option.map_some] at e
  cases e
  exact At.push (s := { s with cur := { s.cur with inToc := true } }) ⟨h.emb, h.inl, h.cel, h.src, h.alt, h.neu, h.foot, h.out, h.stk⟩ (by simp [chk])
theorem x_toc (pos : TocPosition) : T c p p [.exit (.toc pos)] [.nav] [] := by
  intro o s t k h e
  rw [run_one] at e
  simp only [step, exit] at e
  cases e
  have h1 := h.push (ts := [.closing .nav]) (l := k) (by simp [chk])
  exact ⟨h1.emb, h1.inl, h1.cel, h1.src, h1.alt, h1.neu, h1.foot, h1.out, h1.stk⟩

/-- The calls only add to the main buffer and to the footnotes. -/
def W (evs : List Ev) (a b : List Tag) : Prop :=
  ∀ s t, run evs s = some t → ∃ seg fs, t = s.ext seg fs ∧ (∀ k, chk seg (a ++ k) = some (b ++ k)) ∧ ∀ f ∈ fs, Neutral f.2

theorem W_nil (a : List Tag) : W [] a a := by intro s t e; cases e; exact ⟨[], [], (ext_nil s).symm, fun _ => rfl, by simp⟩
theorem W_append {x y : List Ev} {a b d : List Tag} (h : W x a b) (k : W y b d) : W (x ++ y) a d := by
  intro s t e
  obtain ⟨u, e1, e2⟩ := run_append_some e
  obtain ⟨w, f, rfl, h1, h2⟩ := h s u e1
  obtain ⟨v, g, rfl, k1, k2⟩ := k _ t e2
  refine ⟨w ++ v, f ++ g, ext_ext .., fun l => ?_, fun x hx => ?_⟩
  · rw [chk_append, h1]; exact k1 l
  · rcases List.mem_append.1 hx with h | h
    · exact h2 x h
    · exact k2 x h
theorem W_around {l : Call} {x : List Ev} {a b d e : List Tag} (h1 : W [.enter l] a b) (h2 : W x b d) (h3 : W [.exit l] d e) :
    W (around l x) a e := W_append h1 (W_append h2 h3)
theorem W_I {evs : List Ev} (h : I evs) (a : List Tag) : W evs a a := by
  intro s t e
  obtain ⟨seg, fs, rfl, h1, h2⟩ := run_I h s t e
  exact ⟨seg, fs, rfl, fun k => Bal.Seg.neutral h1 _, fun f hf => Bal.Seg.neutral (h2 f hf)⟩
theorem W_push {e : Ev} {ts : List Tok} {a b : List Tag} (h : ∀ s, step e s = some (s.push ts)) (hk : ∀ k, chk ts (a ++ k) = some (b ++ k)) : W [e] a b := by
  intro s t r
  rw [run_one, h] at r
  cases r
  exact ⟨ts, [], push_ext .., hk, by simp⟩
theorem W.T {evs : List Ev} {a b : List Tag} (h : W evs a b) : T c p p evs a b := by
  intro o s t l hs e
  obtain ⟨seg, fs, rfl, h1, h2⟩ := h s t e
  exact ⟨hs.emb, hs.inl, hs.cel, hs.src, hs.alt, hs.neu, (by
    intro f hm
    rcases List.mem_append.1 hm with h1 | h1
    · exact hs.foot f h1
    · exact h2 f h1), hs.out, by show chk (s.cur.html ++ seg) [] = _; rw [chk_append, hs.stk]; exact h1 l⟩

/-- the end of the preamble with a table of contents in the other buffer -/
theorem exit_preamble_swapped {m : Bool} {z t : State}
    (h : At { c with pre := true } o false { z with cur := { z.cur with html := z.cur.alt, alt := [] } } ((if m then [.section] else []) ++ k))
    (hn : Neutral z.cur.html) (e : exit (.preamble m) z = some t) : At { c with pre := true } o false t k := by
  simp only [exit] at e
  by_cases he : z.cur.alt = []
  · rw [if_pos he] at e
    have hk : (if m then [Tag.section] else []) ++ k = [] := by
      have := h.stk
      simp only [he] at this
      exact (Option.some.inj this).symm
    have hm : m = false := by cases m with
      | false => rfl
      | true => simp at hk
    subst hm
    have hk : k = [] := by simpa using hk
    subst hk
    cases e
    refine ⟨h.emb, h.inl, h.cel, h.src, fun _ _ => he, ?_, h.foot, h.out, hn []⟩
    show Neutral z.cur.alt
    rw [he]; exact .nil
  · rw [if_neg he] at e
    cases e
    exact At.push (h.pushIf (b := m) (ts := [.closing .section]) (l := k) (by cases m <;> simp [chk])) (hn k)

section
variable {inl : List Inline → List Ev} (hi : ∀ ns, I (inl ns))
include hi

mutual
theorem W_tocNode : ∀ t : TocNode, W (evalTocNode inl t) [] []
  | .mk _ title [] => by
    simp only [evalTocNode, List.append_nil]
    refine W_around (b := [.a, .li]) (d := [.li]) (W_push (ts := [.opening .li, .opening .a]) (fun _ => rfl) (fun _ => rfl)) ?_
      (W_push (ts := [.closing .li]) (fun _ => rfl) (fun _ => by simp [chk]))
    exact W_around (b := [.a, .li]) (d := [.a, .li]) (W_push (ts := []) (fun s => by simp [step, enter, Html.enter, State.push, Frame.push]) (fun _ => rfl)) (W_I (hi title) _)
      (W_push (ts := [.closing .a]) (fun _ => rfl) (fun _ => by simp [chk]))
  | .mk _ title (d :: ds) => by
    simp only [evalTocNode]
    refine W_around (b := [.a, .li]) (d := [.li]) (W_push (ts := [.opening .li, .opening .a]) (fun _ => rfl) (fun _ => rfl)) (W_append (b := [.li]) ?_ ?_)
      (W_push (ts := [.closing .li]) (fun _ => rfl) (fun _ => by simp [chk]))
    · exact W_around (b := [.a, .li]) (d := [.a, .li]) (W_push (ts := []) (fun s => by simp [step, enter, Html.enter, State.push, Frame.push]) (fun _ => rfl)) (W_I (hi title) _)
        (W_push (ts := [.closing .a]) (fun _ => rfl) (fun _ => by simp [chk]))
    · refine W_around (b := [.ol, .li]) (d := [.ol, .li]) (W_push (ts := [.opening .ol]) (fun _ => rfl) (fun _ => rfl)) (W_append (b := [.ol, .li]) ?_ ?_)
        (W_push (ts := [.closing .ol]) (fun _ => rfl) (fun _ => by simp [chk]))
      · intro s t e
        obtain ⟨w, f, h1, h2, h3⟩ := W_tocNode d s t e
        exact ⟨w, f, h1, fun k => h2 _, h3⟩
      · intro s t e
        obtain ⟨w, f, h1, h2, h3⟩ := W_tocNodes ds s t e
        exact ⟨w, f, h1, fun k => h2 _, h3⟩
theorem W_tocNodes : ∀ ts : List TocNode, W (evalTocNodes inl ts) [] []
  | [] => W_nil _
  | t :: ts => W_append (W_tocNode t) (W_tocNodes ts)
end

theorem W_tocLevel (ts : List TocNode) : W (around .tocLevel (evalTocNodes inl ts)) [] [] := by
  refine W_around (b := [.ol]) (d := [.ol]) (W_push (ts := [.opening .ol]) (fun _ => rfl) (fun _ => rfl)) ?_
    (W_push (ts := [.closing .ol]) (fun _ => rfl) (fun _ => by simp [chk]))
  intro s t e
  obtain ⟨w, f, h1, h2, h3⟩ := W_tocNodes hi ts s t e
  exact ⟨w, f, h1, fun k => h2 _, h3⟩

theorem T_toc (toc : Option Toc) (ps : List TocPosition) (hp : .preamble ∉ ps) : T c p p (evalTocAt inl toc ps) [] [] := by
  cases toc with
  | none => exact T_nil _
  | some t =>
    simp only [evalTocAt]
    split
    · exact T_nil _
    · next h =>
      have hq : t.position ≠ .preamble := fun e => h (.inl (by rw [e]; exact hp))
      exact T_around (e_toc _ hq) (T_keep (W_tocLevel hi t.nodes).T [.nav]) (x_toc _)

/-- the preamble, with the table of contents after it -/
theorem T_preamble (toc : Option Toc) (m : Bool) {x : List Ev} (h : T { c with pre := true } false false x [] []) :
    T { c with pre := true } false false (around (.preamble m) (x ++ evalTocAt inl toc [.preamble])) [] [] := by
  intro o s t k hs e
  obtain ⟨u, v, e1, e2, e3⟩ := run_around e
  simp only [enter] at e1
  cases e1
  obtain ⟨w, e4, e5⟩ := run_append_some e2
  have h1 : At { c with pre := true } o false (s.pushIf m [.opening .section]) ((if m then [.section] else []) ++ k) := hs.pushIf (by cases m <;> rfl)
  have h2 := T_keep h _ o _ w k h1 e4
  -- the end, if nothing is buffered
  have plain : ∀ v : State, At { c with pre := true } o false v ((if m then [.section] else []) ++ k) → exit (.preamble m) v = some t → At { c with pre := true } o false t k := by
    intro v hv e
    simp only [exit, hv.alt rfl rfl, if_true] at e
    cases e
    refine hv.pushIf ?_
    cases m <;> simp [chk]
  cases toc with
  | none => cases e5; exact plain _ h2 e3
  | some y =>
    simp only [evalTocAt] at e5
    split at e5
    · cases e5; exact plain _ h2 e3
    next hy =>
      have hp : y.position = .preamble := by
        false_or_by_contra; rename_i hh
        exact hy (.inl (by simp [hh]))
      obtain ⟨a, b, e6, e7, e8⟩ := run_around e5
      simp only [enter, hp, if_true, State.startBuffering, h2.alt rfl rfl, Option.map_some] at e6
      cases e6
      obtain ⟨seg, fs, rfl, h3, h4⟩ := W_tocLevel hi y.nodes _ b e7
      simp only [exit] at e8
      cases e8
      have hn : Neutral ([.opening .nav, .opening (.h 2), .closing (.h 2)] ++ seg ++ [.closing .nav]) := by
        intro l
        simp only [chk_append, chk, if_true, Option.bind_some]
        have := h3 (.nav :: l)
        simp only [List.nil_append] at this
        rw [this]; simp [chk]
      have hf : ∀ f ∈ w.footnotes ++ fs, Neutral f.2 := by
        intro f hm
        rcases List.mem_append.1 hm with h1 | h1
        · exact h2.foot f h1
        · exact h4 f h1
      refine exit_preamble_swapped ?_ ?_ e3
      · exact ⟨h2.emb, h2.inl, h2.cel, h2.src, fun _ _ => rfl, .nil, hf, h2.out, h2.stk⟩
      · show Neutral (w.cur.alt ++ _ ++ seg ++ _)
        rw [h2.alt rfl rfl]; exact hn

theorem T_inl (ns : List Inline) (a : List Tag) : T c p p (inl ns) a a := T_I (hi ns) a

/-- the text of a simple block -/
theorem T_simple (b : BlockInfo) (ns : List Inline) : T c p p (simple inl b ns) (if b.context = .verse then [.pre] else []) [] := by
  by_cases hb : b.context = .blockQuote
  · have h1 := e_simple (c := c) (p := p) b
    have h2 := x_simple (c := c) (p := p) b
    rw [if_pos hb] at h1 h2
    rw [if_neg (by rw [hb]; decide)]
    exact T_around h1 (T_inl hi ns _) h2
  · have h1 := e_simple (c := c) (p := p) b
    have h2 := x_simple (c := c) (p := p) b
    rw [if_neg hb] at h1 h2
    exact T_around (T_keep h1 _) (T_inl hi ns _) h2
theorem T_simple_keep {b : BlockInfo} (ns : List Inline) (h : b.context ≠ .verse) (a : List Tag) : T c p p (simple inl b ns) a a := by
  have := T_simple (c := c) (p := p) hi b ns
  rw [if_neg h] at this
  exact T_keep this a

/-- the title waits in the second buffer -/
def pending (b : BlockInfo) : Bool := b.hasTitle && !decide (b.context = .passthrough)

theorem T_title (info : BlockInfo) (title : Option (List Inline)) : T c false (pending (Eval.view info title)) (evalTitle inl (Eval.view info title) title) [] [] := by
  cases title with
  | none => exact T_nil _
  | some ns =>
    intro o s t k h e
    obtain ⟨u, v, e1, e2, e3⟩ := run_around e
    simp only [enter, Html.enter, State.startBuffering] at e1
    split at e1
    case isFalse => cases e1
    case isTrue ha =>
      cases e1
      obtain ⟨seg, fs, rfl, h1, h2⟩ := run_I (hi ns) _ v e2
      have hf : ∀ f ∈ s.footnotes ++ fs, Neutral f.2 := by
        intro f hm
        rcases List.mem_append.1 hm with h3 | h3
        · exact h.foot f h3
        · exact Bal.Seg.neutral (h2 f h3)
      simp only [exit, Html.exit] at e3
      cases e3
      split
      · exact ⟨h.emb, h.inl, h.cel, h.src, fun _ _ => rfl, .nil, hf, h.out, h.stk⟩
      · next hp =>
        refine ⟨h.emb, h.inl, h.cel, h.src, fun _ hq => ?_, ?_, hf, h.out, h.stk⟩
        · simp [pending, Eval.view] at hq
          exact absurd (of_decide_eq_true hq) hp
        · show Neutral (s.cur.alt ++ seg)
          rw [ha]; exact Bal.Seg.neutral h1

theorem T_docTitle (title : Option (List Inline)) (a : List Tag) : T c false false (evalDocTitle inl title) a a := by
  refine T_keep ?_ a
  cases title with
  | none => exact T_nil _
  | some ns =>
    intro o s t k h e
    obtain ⟨u, v, e1, e2, e3⟩ := run_around e
    simp only [enter, Html.enter] at e1
    split at e1
    case isTrue hr =>
      cases e1
      obtain ⟨seg, fs, rfl, h1, h2⟩ := run_I (hi ns) _ v e2
      have h3 : At c o false ((s.push [.opening (.h 1)]).ext seg fs) (.h 1 :: k) :=
        (h.push (by simp [chk])).ext (Bal.Seg.neutral h1) (fun f hf => Bal.Seg.neutral (h2 f hf))
      simp only [exit, Html.exit] at e3
      have hr' : ((s.push [.opening (.h 1)]).ext seg fs).cur.rendersTitle = true := hr
      rw [if_pos hr'] at e3
      cases e3
      exact h3.push (by simp [chk])
    case isFalse hr =>
      simp only [State.startBuffering] at e1
      split at e1
      case isFalse => cases e1
      case isTrue ha =>
        cases e1
        obtain ⟨seg, fs, rfl, h1, h2⟩ := run_I (hi ns) _ v e2
        simp only [exit, Html.exit] at e3
        have hr' : ¬ (s.swap.ext seg fs).cur.rendersTitle = true := hr
        rw [if_neg hr'] at e3
        cases e3
        refine ⟨h.emb, h.inl, h.cel, h.src, fun _ _ => rfl, .nil, ?_, h.out, h.stk⟩
        intro f hm
        rcases List.mem_append.1 hm with h3 | h3
        · exact h.foot f h3
        · exact Bal.Seg.neutral (h2 f h3)

theorem T_docinfo (e : Bool) (f : Option (List Inline)) (a : List Tag) : T c p p (evalDocinfo inl e f) a a := by
  cases f with
  | none => exact T_nil _
  | some ns =>
    simp only [evalDocinfo]
    split
    · exact T_nil _
    · exact T_inl hi ns a

/-- who is quoted, and where; `.p` is the paragraph that the attribution ends -/
theorem T_quoteAttr (b : BlockInfo) (a ci : Option (List Inline)) (ha : b.context = .quotedParagraph → a.isSome = true) :
    T c false false (evalQuoteAttr inl b a ci) (if b.context = .quotedParagraph then [.p] else []) [] := by
  cases a with
  | none =>
    have hb : b.context ≠ .quotedParagraph := fun h => by simp at ha; exact ha h
    rw [if_neg hb]
    cases ci with
    | none => exact T_nil _
    | some n => exact T_around (e_cite b false) (T_inl hi n _) (x_cite b false)
  | some m =>
    cases ci with
    | none => simp only [evalQuoteAttr, List.append_nil]; exact T_around (e_attribution b false) (T_inl hi m _) (x_attribution b false)
    | some n => exact T_append (T_around (e_attribution b true) (T_inl hi m _) (x_attribution b true)) (T_around (e_cite b true) (T_inl hi n _) (x_cite b true))
theorem T_attr_keep {b : BlockInfo} (a ci : Option (List Inline)) (h : b.context ≠ .quotedParagraph) (l : List Tag) : T c false false (evalQuoteAttr inl b a ci) l l := by
  have := T_quoteAttr (c := c) hi b a ci (fun e => absurd e h)
  rw [if_neg h] at this
  exact T_keep this l

theorem run_simple {b : BlockInfo} (ns : List Inline) (hb : b.context ≠ .blockQuote) (hv : b.context ≠ .verse) {s t : State} (e : run (simple inl b ns) s = some t) : Writes s t := by
  obtain ⟨u, v, e1, e2, e3⟩ := run_around e
  have : decide (b.context = .blockQuote) = false := by simp [hb]
  simp only [enter, State.pushIf, this, if_false, Bool.false_eq_true] at e1
  simp only [exit, if_neg hb, if_neg hv] at e3
  cases e1; cases e3
  have h := run_I (hi ns) _ _ e2
  exact h.trans (.push _ .nil)

theorem T_paragraph (b : BlockInfo) (ns : List Inline) (hb : b.context = .paragraph) (ht : c.pre = true → b.hasTitle = true → c.inline = false) :
    T c b.hasTitle false (around (.paragraph b) (simple inl b ns)) [] [] := by
  intro o s t k h e
  obtain ⟨u, v, e1, e2, e3⟩ := run_around e
  have hw := run_simple hi ns (by rw [hb]; decide) (by rw [hb]; decide) e2
  cases hd : s.cur.attrs.inlineDoctype with
  | true =>
    simp only [enter, hd, if_true] at e1
    cases e1
    obtain ⟨seg, fs, rfl, h1, h2⟩ := hw
    have hd' : (s.ext seg fs).cur.attrs.inlineDoctype = true := hd
    simp only [exit, hd', if_true] at e3
    cases e3
    refine At.drop (h.ext (Bal.Seg.neutral h1) (fun f hf => Bal.Seg.neutral (h2 f hf))) (fun hp => ?_)
    cases hx : b.hasTitle with
    | false => rfl
    | true =>
      have := ht hp hx
      rw [← h.inl, hd] at this
      cases this
  | false =>
    simp only [enter, hd, if_false, Bool.false_eq_true] at e1
    cases e1
    have h1 : At c o false (bufferedTitle (s.pushIf b.hasTitle [.opening .section]) b true) ((if b.hasTitle then [.section] else []) ++ k) :=
      At.title (h.pushIf (by cases b.hasTitle <;> rfl))
    generalize hz : bufferedTitle (s.pushIf b.hasTitle [.opening .section]) b true = z at h1 hw
    have hi1 : z.cur.attrs.inlineDoctype = false := by rw [h1.inl, ← h.inl, hd]
    obtain ⟨seg, fs, rfl, hs1, hs2⟩ := hw
    have h2 := h1.pushIf (b := !z.cur.simpleTerm) (ts := [.opening (if b.isAbstract then .blockquote else .p)])
      (l := (if !z.cur.simpleTerm then [if b.isAbstract then .blockquote else .p] else []) ++ ((if b.hasTitle then [.section] else []) ++ k)) (by cases z.cur.simpleTerm <;> rfl)
    generalize hy : z.pushIf (!z.cur.simpleTerm) [.opening (if b.isAbstract then .blockquote else .p)] = y at h2 e3 hs1
    have hys : y.cur.simpleTerm = z.cur.simpleTerm := by rw [← hy]; simp only [pushIf_ext]; rfl
    have h3 := h2.ext (Bal.Seg.neutral hs1) (fun f hf => Bal.Seg.neutral (hs2 f hf))
    have hi2 : (y.ext seg fs).cur.attrs.inlineDoctype = false := by rw [h3.inl, ← h.inl, hd]
    have hxs : (y.ext seg fs).cur.simpleTerm = z.cur.simpleTerm := hys
    simp only [exit, hi2, if_false, Bool.false_eq_true, hxs] at e3
    cases e3
    have h4 := (h3.pushIf (b := !z.cur.simpleTerm) (ts := [.closing (if b.isAbstract then .blockquote else .p)])
      (l := (if b.hasTitle then [.section] else []) ++ k) (by cases z.cur.simpleTerm <;> simp [chk])).pushIf (b := b.hasTitle) (ts := [.closing .section])
      (l := k) (by cases b.hasTitle <;> simp [chk])
    exact ⟨h4.emb, h4.inl, h4.cel, h4.src, h4.alt, h4.neu, h4.foot, h4.out, h4.stk⟩

theorem T_listing (b : BlockInfo) (ns : List Inline) (hb : b.context = .listing) : T c b.hasTitle false (around (.listing b) (simple inl b ns)) [] [] := by
  intro o s t k h e
  obtain ⟨u, v, e1, e2, e3⟩ := run_around e
  obtain ⟨seg, fs, rfl, hs1, hs2⟩ := run_simple hi ns (by rw [hb]; decide) (by rw [hb]; decide) e2
  simp only [enter] at e1
  have h1 : At c o false ((bufferedTitle (s.push [.opening (box .figure b)]) b false).push [.opening .pre]) (.pre :: box .figure b :: k) :=
    At.push (At.title (h.push (by simp [chk]; rfl))) (by simp [chk])
  generalize (bufferedTitle (s.push [.opening (box .figure b)]) b false).push [.opening .pre] = z at h1 e1
  split at e1
  · cases e1
    simp only [exit] at e3
    cases e3
    refine At.push (k := .pre :: box .figure b :: k) ?_ (by simp [chk])
    have h2 : At c o false ((({ z with cur := { z.cur with source := false } } : State).push [.opening .code]).ext seg fs) (.code :: .pre :: box .figure b :: k) :=
      (At.push (s := { z with cur := { z.cur with source := false } }) ⟨h1.emb, h1.inl, h1.cel, rfl, h1.alt, h1.neu, h1.foot, h1.out, h1.stk⟩ (by simp [chk])).ext
        (Bal.Seg.neutral hs1) (fun f hf => Bal.Seg.neutral (hs2 f hf))
    exact h2.push (by simp [chk])
  · cases e1
    have h2 := h1.ext (Bal.Seg.neutral hs1) (fun f hf => Bal.Seg.neutral (hs2 f hf))
    simp only [exit, h2.src] at e3
    cases e3
    refine At.push (k := .pre :: box .figure b :: k) ?_ (by simp [chk])
    exact ⟨h2.emb, h2.inl, h2.cel, rfl, h2.alt, h2.neu, h2.foot, h2.out, h2.stk⟩

theorem T_sectionHeading (i : SectInfo) (ns : List Inline) (a : List Tag) : T c false false (around (.sectionHeading i) (inl ns)) a a := by
  refine T_keep ?_ a
  intro o s t k h e
  obtain ⟨u, v, e1, e2, e3⟩ := run_around e
  simp only [enter, Html.enter] at e1
  cases e1
  obtain ⟨seg, fs, rfl, hs1, hs2⟩ := run_I (hi ns) _ v e2
  have h1 : At c o false ((s.push [.opening (headingTag i.level)]).pushIf (i.hasId && (s.push [.opening (headingTag i.level)]).cur.attrs.sectanchors) [.opening .a, .closing .a])
      (headingTag i.level :: k) := by
    refine At.pushIf (h.push (by simp [chk]; rfl)) ?_
    split <;> simp [chk]
  generalize hz : (s.push [.opening (headingTag i.level)]).pushIf (i.hasId && (s.push [.opening (headingTag i.level)]).cur.attrs.sectanchors) [.opening .a, .closing .a] = z at h1 e3 hs1
  have h2 := h1.pushIf (b := i.hasId && z.cur.attrs.sectlinks) (ts := [.opening .a]) (l := (if i.hasId && z.cur.attrs.sectlinks then [.a] else []) ++ headingTag i.level :: k)
    (by split <;> simp [chk])
  have h3 := h2.ext (Bal.Seg.neutral hs1) (fun f hf => Bal.Seg.neutral (hs2 f hf))
  generalize hy : z.pushIf (i.hasId && z.cur.attrs.sectlinks) [.opening .a] = y at h3 e3
  have hys : (y.ext seg fs).cur.attrs.sectlinks = z.cur.attrs.sectlinks := by rw [← hy]; simp only [pushIf_ext]; rfl
  simp only [exit, hys, Bool.and_comm z.cur.attrs.sectlinks] at e3
  cases e3
  refine At.push (k := headingTag i.level :: k) (h3.pushIf ?_) (by simp [chk])
  split <;> simp [chk]

theorem T_header (title : Option (List Inline)) (a : List Tag) : T c false false (around .header (evalDocTitle inl title)) a a := by
  refine T_keep ?_ a
  intro o s t k h e
  obtain ⟨u, v, e1, e2, e3⟩ := run_around e
  simp only [enter] at e1
  cases e1
  have h1 := h.pushIf (b := !s.cur.attrs.embedded && !s.cur.attrs.noheader) (ts := [.opening .header])
    (l := (if !s.cur.attrs.embedded && !s.cur.attrs.noheader then [.header] else []) ++ k) (by split <;> simp [chk])
  have h2 := T_docTitle hi title _ o _ v k h1 e2
  have ha : v.cur.attrs = s.cur.attrs := by
    have h0 : ∀ (x y : State), run (evalDocTitle inl title) x = some y → y.cur.attrs = x.cur.attrs := by
      intro x y e
      cases title with
      | none => cases e; rfl
      | some ns =>
        obtain ⟨u, v, e1, e2, e3⟩ := run_around e
        obtain ⟨seg, fs, rfl, hs1, hs2⟩ := run_I (hi ns) _ v e2
        simp only [enter, Html.enter, State.startBuffering] at e1
        simp only [exit, Html.exit] at e3
        repeat' split at e1
        all_goals cases e1
        all_goals cases e3
        all_goals split
        all_goals rfl
    rw [h0 _ _ e2]; simp only [pushIf_ext]; rfl
  simp only [exit, ha] at e3
  cases e3
  refine h2.pushIf ?_
  split <;> simp [chk]

omit hi in
theorem footnotes_neutral : ∀ (fs : List (Option Text × List Tok)) (i : Nat), (∀ f ∈ fs, Neutral f.2) → Neutral (footnoteItems fs i)
  | [], _, _ => .nil
  | (id, b) :: fs, i, h => by
    have h1 := footnotes_neutral fs (i + 1) (fun f hf => h f (by simp [hf]))
    have h2 : Neutral ([.opening .li, .footnoteDef i] ++ b ++ [.opening .a, .closing .a, .closing .li]) := fun k => by
      simp only [List.append_assoc, chk_append, List.cons_append, List.nil_append, chk]
      simp [chk_append, h (id, b) (by simp) _, chk]
    exact h2.append h1
omit hi in
theorem renderFootnotes_neutral {fs : List (Option Text × List Tok)} (h : ∀ f ∈ fs, Neutral f.2) : Neutral (renderFootnotes fs) := by
  intro k
  simp only [renderFootnotes, List.append_assoc, List.cons_append, List.nil_append, chk]
  simp [chk_append, footnotes_neutral fs 1 h _, chk]

omit hi in
theorem T_footer (a : List Tag) : T c false false (around .footer []) a a := by
  refine T_keep ?_ a
  intro o s t k h e
  obtain ⟨u, v, e1, e2, e3⟩ := run_around e
  cases e2
  simp only [enter] at e1
  cases e1
  have h1 : At c o false (s.pushIf (!s.footnotes.isEmpty && !s.cur.inCell) (renderFootnotes s.footnotes)) k := by
    refine h.pushIf ?_
    split
    · exact renderFootnotes_neutral h.foot k
    · rfl
  generalize s.pushIf (!s.footnotes.isEmpty && !s.cur.inCell) (renderFootnotes s.footnotes) = z at h1 e3
  have h2 := h1.pushIf (b := !z.cur.attrs.embedded && !z.cur.attrs.nofooter) (ts := [.opening .footer, .opening .div, .closing .div])
    (l := (if !z.cur.attrs.embedded && !z.cur.attrs.nofooter then [.footer] else []) ++ k) (by split <;> simp [chk])
  generalize hy : z.pushIf (!z.cur.attrs.embedded && !z.cur.attrs.nofooter) [.opening .footer, .opening .div, .closing .div] = y at h2 e3
  have ha : y.cur.attrs = z.cur.attrs := by rw [← hy]; simp only [pushIf_ext]; rfl
  simp only [exit, ha] at e3
  cases e3
  refine h2.pushIf ?_
  split <;> simp [chk]

theorem T_terms (a : List Tag) : ∀ (i : Nat) (ts : List (List Inline)), T c false false (evalTerms inl i ts) a a
  | _, [] => T_nil _
  | i, t :: ts => T_append (T_keep (T_around (e_term i) (T_inl hi t _) (x_term i)) a) (T_terms a (i + 1) ts)
theorem T_cellParagraphs (st : CellStyle) (s : TableSection) (m : Bool) (hk : s = .header → styleTags st = []) (a : List Tag) :
    ∀ ps : List (List Inline), T c false false (evalCellParagraphs inl st s m ps) a a
  | [] => T_nil _
  | x :: xs => T_append (T_keep (T_around (e_cellParagraph st s m) (T_inl hi x _) (x_cellParagraph st s m hk)) a) (T_cellParagraphs st s m hk a xs)

end

/-- the output ends with `</div>` -/
def Ends (s : State) : Prop := s.cur.html.getLast? = some (.closing .div)

theorem ends_push (s : State) (ts : List Tok) (h : ts.getLast? = some (.closing .div)) : Ends (s.push ts) := by
  simp [Ends, State.push, Frame.push, List.getLast?_append, h]

theorem ends_around {l : Call} {x : List Ev} {s t : State} (h : ∀ u v, exit l u = some v → Ends v) (e : run (around l x) s = some t) : Ends t := by
  obtain ⟨u, v, _, _, e3⟩ := run_around e
  exact h v t e3

theorem ends_content (inl : List Inline → List Ev) (toc : Option Toc) (info : BlockInfo) (title a ci : Option (List Inline)) (x : Content) (before : Bool) {s t : State}
    (e : run (evalContent inl toc (Eval.view info title) a ci x) s = some t) (hs : before = true → Ends s) (h : endsDiv before (.mk info title a ci x) = true) : Ends t := by
  have ht : title.isNone = true → (Eval.view info title).hasTitle = false := by cases title <;> simp [Eval.view]
  have hx : (Eval.view info title).context = info.context := rfl
  have hco : (Eval.view info title).collapsible = info.collapsible := rfl
  have hab : (Eval.view info title).isAbstract = info.isAbstract := rfl
  have hde : (Eval.view info title).depth = info.depth := rfl
  generalize Eval.view info title = b at e ht hx hco hab hde
  have other : ∀ {s t : State}, run (evalOther inl toc b.context) s = some t → (before = true → Ends s) → (b.context = .pageBreak ∨ b.context = .comment ∧ before = true) ∨
      (b.context ≠ .thematicBreak ∧ b.context ≠ .pageBreak ∧ b.context ≠ .tableOfContents ∧ b.context ≠ .comment) → Ends t := by
    intro s t e hs h
    rcases h with (h | ⟨h, hb⟩) | ⟨h1, h2, h3, h4⟩
    · rw [h] at e; simp only [evalOther, run_one, step, visitCall] at e; cases e; exact ends_push _ _ rfl
    · rw [h] at e; simp only [evalOther] at e; cases e; exact hs hb
    · have : evalOther inl toc b.context = [.panic] := by
        cases hc : b.context <;> simp_all [evalOther]
      rw [this] at e; cases e
  simp only [endsDiv] at h
  cases hc : info.context <;> simp only [hc] at h <;> rw [hc] at hx <;> simp only [hx] at other <;> try (cases h; done)
  case pageBreak => cases x <;> simp only [evalContent, hx] at e <;> exact other e hs (.inl (.inl trivial))
  case comment =>
    have hb : before = true := by revert h; cases before <;> simp
    cases x <;> simp only [evalContent, hx] at e <;> exact other e hs (.inl (.inr ⟨trivial, hb⟩))
  case documentAttributeDecl =>
    have hb : before = true := by revert h; cases before <;> simp
    cases x <;> simp only [evalContent, hx] at e
    case declaration m => rw [run_one] at e; simp only [step, visitCall] at e; cases e; exact hs hb
    all_goals exact other e hs (.inr (by decide))
  case audio =>
    cases x <;> simp only [evalContent, hx] at e
    case audioVideo => rw [run_one] at e; simp only [step, visitCall] at e; cases e; exact ends_push _ _ (by simp [box, ht h])
    all_goals exact other e hs (.inr (by decide))
  case video =>
    cases x <;> simp only [evalContent, hx] at e
    case audioVideo => rw [run_one] at e; simp only [step, visitCall] at e; cases e; exact ends_push _ _ (by simp [box, ht h])
    all_goals exact other e hs (.inr (by decide))
  case image =>
    cases x <;> simp only [evalContent, hx] at e
    case image t l =>
      simp only [Bool.and_eq_true, Option.isNone_iff_eq_none] at h
      refine ends_around (fun u v ex => ?_) e
      simp only [exit] at ex
      cases ex
      have := ht (by simp [h.1])
      exact ends_push _ _ (by simp [imageTag, this, h.2])
    all_goals exact other e hs (.inr (by decide))
  case calloutList =>
    cases x <;> simp only [evalContent, hx] at e
    case list v items =>
      refine ends_around (fun u v ex => ?_) e
      simp only [exit] at ex
      cases ex
      exact ends_push _ _ rfl
    all_goals exact other e hs (.inr (by decide))
  case quotedParagraph =>
    cases x <;> simp only [evalContent, hx] at e
    case quoted =>
      refine ends_around (fun u v ex => ?_) e
      simp only [exit] at ex
      cases ex
      exact ends_push _ _ rfl
    all_goals exact other e hs (.inr (by decide))
  case listing =>
    cases x <;> simp only [evalContent, hx] at e
    case simple =>
      refine ends_around (fun u v ex => ?_) e
      simp only [exit] at ex
      cases ex
      exact ends_push _ _ (by simp [box, ht h])
    all_goals exact other e hs (.inr (by decide))
  case literal =>
    cases x <;> simp only [evalContent, hx] at e
    case simple =>
      refine ends_around (fun u v ex => ?_) e
      simp only [exit] at ex
      cases ex
      exact ends_push _ _ (by simp [box, ht h])
    all_goals exact other e hs (.inr (by decide))
  case verse =>
    cases x <;> simp only [evalContent, hx] at e
    case simple =>
      refine ends_around (fun u v ex => ?_) e
      simp only [exit] at ex
      cases ex
      exact ends_push _ _ (by simp [box, ht h])
    all_goals exact other e hs (.inr (by decide))
  case table =>
    cases x <;> simp only [evalContent, hx] at e
    case table =>
      refine ends_around (fun u v ex => ?_) e
      simp only [exit] at ex
      cases ex
      exact ends_push _ _ (by simp [box, ht h])
    all_goals exact other e hs (.inr (by decide))
  case blockQuote =>
    cases x <;> simp only [evalContent, hx] at e
    case simple =>
      refine ends_around (fun u v ex => ?_) e
      simp only [exit] at ex
      cases ex
      exact ends_push _ _ (by simp [box, ht h])
    case compound =>
      refine ends_around (fun u v ex => ?_) e
      simp only [exit] at ex
      cases ex
      exact ends_push _ _ (by simp [box, ht h])
    all_goals exact other e hs (.inr (by decide))
  case «example» =>
    have h1 : title.isNone = true ∧ info.collapsible = false := by simpa using h
    cases x <;> simp only [evalContent, hx] at e
    case simple =>
      refine ends_around (fun u v ex => ?_) e
      simp only [exit] at ex
      cases ex
      exact ends_push _ _ (by simp [box, ht h1.1, hco, h1.2])
    case compound =>
      refine ends_around (fun u v ex => ?_) e
      simp only [exit] at ex
      cases ex
      exact ends_push _ _ (by simp [box, ht h1.1, hco, h1.2])
    all_goals exact other e hs (.inr (by decide))
  case openBlock =>
    cases x <;> simp only [evalContent, hx] at e
    case compound =>
      refine ends_around (fun u v ex => ?_) e
      simp only [exit] at ex
      cases ex
      cases ha : info.isAbstract with
      | false => exact ends_push _ _ (by simp [hab, ha])
      | true =>
        have h1 : title.isNone = true := by simpa [ha] using h
        exact ends_push _ _ (by simp [hab, ha, box, ht h1])
    all_goals exact other e hs (.inr (by decide))
  all_goals
    have h1 : title.isNone = true ∧ info.depth = 1 := by simpa using h
    cases x <;> simp only [evalContent, hx] at e
    case list =>
      refine ends_around (fun u v ex => ?_) e
      simp only [exit, hde, h1.2, State.pushIf, decide_true, if_true] at ex
      cases ex
      exact ends_push _ _ (by simp [box, ht h1.1])
    all_goals exact other e hs (.inr (by decide))

end Verif.Html5s

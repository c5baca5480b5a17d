import Verif.Lemmas.Html
import Verif.Lemmas.EvalAll
import Verif.Lemmas.EvalOrder
import Verif.Spec.Balanced
/-! Well bracketed output: a stack of open elements, and what each call does to it. -/
set_option linter.unusedSectionVars false
set_option linter.unusedVariables false
set_option linter.unusedSimpArgs false
namespace Verif.Html.Bal
open Verif.Ast Verif.Eval Verif.Html Verif.Spec.Eval Verif.Spec.Html Verif.Spec.Balanced

/-- the open elements after some output; `none` if a tag does not match -/
def chk : List Tok → List Tag → Option (List Tag)
  | [], k => some k
  | .opening t :: ts, k => chk ts (t :: k)
  | .closing t :: ts, k => match k with
    | [] => none
    | u :: k => if t = u then chk ts k else none
  | _ :: ts, k => chk ts k

theorem chk_append : ∀ (a b : List Tok) (k : List Tag), chk (a ++ b) k = (chk a k).bind (chk b)
  | [], b, k => rfl
  | .opening t :: a, b, k => by simp only [List.cons_append, chk]; exact chk_append a b _
  | .closing t :: a, b, k => by
    simp only [List.cons_append, chk]
    cases k with
    | nil => rfl
    | cons u k => dsimp only; split; exact chk_append a b k; rfl
  | .void _ :: a, b, k | .text _ :: a, b, k | .gen _ :: a, b, k | .caption .. :: a, b, k | .footnote _ :: a, b, k | .footnoteRef _ :: a, b, k
  | .footnoteDef _ :: a, b, k => chk_append a b k

theorem chk_closing (t : Tag) (ts : List Tok) (k : List Tag) : chk (.closing t :: ts) (t :: k) = chk ts k := by simp [chk]

/-- the output leaves the open elements as they are -/
def Neutral (w : List Tok) : Prop := ∀ k, chk w k = some k

theorem Neutral.nil : Neutral [] := fun _ => rfl
theorem Neutral.append {a b : List Tok} (ha : Neutral a) (hb : Neutral b) : Neutral (a ++ b) := fun k => by rw [chk_append, ha k]; exact hb k
theorem Neutral.element {a : List Tok} (t : Tag) (h : Neutral a) : Neutral (.opening t :: (a ++ [.closing t])) := fun k => by
  simp only [chk]; rw [chk_append, h]; exact chk_closing t [] k

theorem Balanced.neutral {w : List Tok} (h : Balanced w) : Neutral w := by
  induction h with
  | nil => exact .nil
  | tok t h => cases t <;> first | exact fun _ => rfl | exact Bool.noConfusion h
  | element t _ ih => exact ih.element t
  | append _ _ iha ihb => exact iha.append ihb

/-- output that closes elements, with well bracketed output in between -/
inductive Closes : List Tag → List Tok → Prop
  | done {b : List Tok} : Balanced b → Closes [] b
  | cons {b r : List Tok} {k : List Tag} (t : Tag) : Balanced b → Closes k r → Closes (t :: k) (b ++ .closing t :: r)

theorem Closes.prepend {a r : List Tok} {k : List Tag} (ha : Balanced a) (h : Closes k r) : Closes k (a ++ r) := by
  cases h with
  | done hb => exact .done (ha.append hb)
  | cons t hb hr => rw [← List.append_assoc]; exact .cons t (ha.append hb) hr

theorem closes_of_chk : ∀ (w : List Tok) (k : List Tag), chk w k = some [] → Closes k w
  | [], k, h => by cases h; exact .done .nil
  | .opening t :: w, k, h => by
    have := closes_of_chk w (t :: k) h
    cases this with
    | cons _ hb hr =>
      have := Closes.prepend (Balanced.element t hb) hr
      simpa using this
  | .closing t :: w, k, h => by
    cases k with
    | nil => cases h
    | cons u k =>
      simp only [chk] at h
      split at h
      · next e => subst e; exact .cons (b := []) t .nil (closes_of_chk w k h)
      · cases h
  | .void x :: w, k, h => Closes.prepend (a := [.void x]) (.tok _ rfl) (closes_of_chk w k h)
  | .text x :: w, k, h => Closes.prepend (a := [.text x]) (.tok _ rfl) (closes_of_chk w k h)
  | .gen x :: w, k, h => Closes.prepend (a := [.gen x]) (.tok _ rfl) (closes_of_chk w k h)
  | .caption x y z :: w, k, h => Closes.prepend (a := [.caption x y z]) (.tok _ rfl) (closes_of_chk w k h)
  | .footnote x :: w, k, h => Closes.prepend (a := [.footnote x]) (.tok _ rfl) (closes_of_chk w k h)
  | .footnoteRef x :: w, k, h => Closes.prepend (a := [.footnoteRef x]) (.tok _ rfl) (closes_of_chk w k h)
  | .footnoteDef x :: w, k, h => Closes.prepend (a := [.footnoteDef x]) (.tok _ rfl) (closes_of_chk w k h)

/-- Output is well bracketed if and only if the stack is empty at its end. -/
theorem balanced_iff {w : List Tok} : Balanced w ↔ chk w [] = some [] := by
  refine ⟨fun h => Balanced.neutral h [], fun h => ?_⟩
  cases closes_of_chk w [] h with
  | done h => exact h

theorem Seg.neutral {b : Bool} {w : List Tok} (h : Seg b w) : Neutral w := by
  induction h with
  | nil => exact .nil
  | void | text | gen | footnote | footnoteRef => exact fun _ => rfl
  | element t _ _ ih => exact ih.element t
  | xref _ ih => exact ih.element _
  | append _ _ iha ihb => exact iha.append ihb

/-- what is known of the state at a place in a document; `none`: nothing -/
structure Cfg where
  embedded : Bool
  inline : Bool
  attrs : Option Meta := none
  cell : Option Bool := none
  horizontal : Bool := false
  qanda : Bool := false
  /-- the flag may be set -/
  glossary : Bool := false
  source : Bool := false
  simple : Option Bool := none

/-- the state agrees with it -/
structure Ok (c : Cfg) (s : State) : Prop where
  emb : s.cur.attrs.embedded = c.embedded
  inl : s.cur.attrs.inlineDoctype = c.inline
  att : ∀ m, c.attrs = some m → s.cur.attrs = m
  cel : ∀ b, c.cell = some b → s.cur.inCell = b
  hor : s.cur.horizontal = c.horizontal
  qan : s.cur.qanda = c.qanda
  glo : c.glossary = false → s.cur.glossary = false
  src : s.cur.source = c.source
  sim : ∀ b, c.simple = some b → s.cur.simpleTerm = b
  alt : Neutral s.cur.alt
  foot : ∀ f ∈ s.footnotes, Neutral f.2

/-- output was added that turns the open elements `a` into `b` -/
def Grow (s t : State) (a b : List Tag) : Prop := ∃ w, t.cur.html = s.cur.html ++ w ∧ ∀ k, chk w (a ++ k) = some (b ++ k)

theorem Grow.refl (s : State) (a : List Tag) : Grow s s a a := ⟨[], by simp, fun _ => rfl⟩
theorem Grow.trans {s t u : State} {a b d : List Tag} (h : Grow s t a b) (k : Grow t u b d) : Grow s u a d := by
  obtain ⟨w, h1, h2⟩ := h
  obtain ⟨v, k1, k2⟩ := k
  refine ⟨w ++ v, by rw [k1, h1, List.append_assoc], fun k => ?_⟩
  rw [chk_append, h2 k]; exact k2 k
theorem Grow.frame {s t : State} {a b : List Tag} (h : Grow s t a b) (d : List Tag) : Grow s t (a ++ d) (b ++ d) := by
  obtain ⟨w, h1, h2⟩ := h
  exact ⟨w, h1, fun k => by rw [List.append_assoc, List.append_assoc]; exact h2 _⟩

/-- between two states -/
def R (c : Cfg) (s t : State) (a b : List Tag) : Prop := Ok c t ∧ t.outer = s.outer ∧ Grow s t a b

theorem R.refl {c : Cfg} {s : State} (h : Ok c s) (a : List Tag) : R c s s a a := ⟨h, rfl, .refl s a⟩
theorem R.trans {c d : Cfg} {s t u : State} {x y z : List Tag} (h : R c s t x y) (k : R d t u y z) : R d s u x z :=
  ⟨k.1, k.2.1.trans h.2.1, h.2.2.trans k.2.2⟩

theorem Ok.push {c : Cfg} {s : State} (h : Ok c s) (ts : List Tok) : Ok c (s.push ts) := ⟨h.1, h.2, h.3, h.4, h.5, h.6, h.7, h.8, h.9, h.10, h.11⟩

theorem R.push {c : Cfg} {s t : State} {x y z : List Tag} {ts : List Tok} (hk : ∀ k, chk ts (y ++ k) = some (z ++ k)) (h : R c s t x y) : R c s (t.push ts) x z :=
  ⟨h.1.push ts, h.2.1, h.2.2.trans ⟨ts, rfl, hk⟩⟩
theorem R.pushIf {c : Cfg} {s t : State} {x y z : List Tag} {b : Bool} {ts : List Tok} (hk : ∀ k, chk (if b then ts else []) (y ++ k) = some (z ++ k)) (h : R c s t x y) :
    R c s (t.pushIf b ts) x z := by
  cases b with
  | true => exact R.push hk h
  | false =>
    refine ⟨h.1, h.2.1, ?_⟩
    exact h.2.2.trans ⟨[], by simp [State.pushIf], hk⟩
theorem R.flags {c d : Cfg} {s t : State} {x y : List Tag} (f : Frame) (h1 : f.html = t.cur.html) (h2 : Ok c t → Ok d { t with cur := f }) (h : R c s t x y) :
    R d s { t with cur := f } x y :=
  ⟨h2 h.1, h.2.1, h.2.2.trans ⟨[], by simp [h1], fun _ => rfl⟩⟩

theorem takeCaption_keeps (f : Frame) (b : BlockInfo) : (takeCaption f b).2.html = f.html ∧ (takeCaption f b).2.alt = f.alt ∧ (takeCaption f b).2.attrs = f.attrs ∧
    (takeCaption f b).2.simpleTerm = f.simpleTerm ∧ (takeCaption f b).2.inCell = f.inCell ∧ (takeCaption f b).2.horizontal = f.horizontal ∧
    (takeCaption f b).2.qanda = f.qanda ∧ (takeCaption f b).2.glossary = f.glossary ∧ (takeCaption f b).2.source = f.source ∧ Neutral (takeCaption f b).1 := by
  unfold takeCaption
  repeat' split
  all_goals exact ⟨rfl, rfl, rfl, rfl, rfl, rfl, rfl, rfl, rfl, fun _ => rfl⟩

theorem neutral_title {a b : List Tok} (t : Tag) (ha : Neutral a) (hb : Neutral b) : Neutral ([.opening t] ++ a ++ b ++ [.closing t]) := by
  have := (ha.append hb).element t
  simpa using this

theorem R.renderTitle {c : Cfg} {s : State} (h : Ok c s) (title : List Tok) (hn : Neutral title) (b : BlockInfo) (x : List Tag) :
    R c s { s with cur := renderBlockTitle s.cur title b } x x := by
  obtain ⟨h1, h2, h3, h4, h5, h6, h7, h8, h9, h10⟩ := takeCaption_keeps s.cur b
  refine ⟨⟨?_, ?_, ?_, ?_, ?_, ?_, ?_, ?_, ?_, ?_, h.foot⟩, rfl, ?_⟩
  · exact (congrArg Meta.embedded h3).trans h.emb
  · exact (congrArg Meta.inlineDoctype h3).trans h.inl
  · exact fun m hm => h3.trans (h.att m hm)
  · exact fun m hm => h5.trans (h.cel m hm)
  · exact h6.trans h.hor
  · exact h7.trans h.qan
  · exact fun hm => h8.trans (h.glo hm)
  · exact h9.trans h.src
  · exact fun m hm => h4.trans (h.sim m hm)
  · show Neutral (takeCaption s.cur b).2.alt
    rw [h2]; exact h.alt
  · refine ⟨[.opening (titleTag b)] ++ (takeCaption s.cur b).1 ++ title ++ [.closing (titleTag b)], ?_, fun k => neutral_title (titleTag b) h10 hn _⟩
    simp [renderBlockTitle, Frame.push, h1]

theorem Ok.noAlt {c : Cfg} {s : State} (h : Ok c s) : Ok c s.discardAlt := ⟨h.1, h.2, h.3, h.4, h.5, h.6, h.7, h.8, h.9, .nil, h.11⟩

theorem R.title {c : Cfg} {s t : State} {x y : List Tag} {b : BlockInfo} (h : R c s t x y) : R c s (t.bufferedTitle b) x y := by
  unfold State.bufferedTitle
  split
  case isTrue =>
    have := R.renderTitle h.1.noAlt t.cur.alt h.1.alt b y
    exact ⟨this.1, h.2.1, h.2.2.trans this.2.2⟩
  case isFalse => exact h

theorem chk_openings : ∀ (ts : List Tag) (k : List Tag), chk (openings ts) k = some (ts.reverse ++ k)
  | [], k => rfl
  | t :: ts, k => by simp [openings, chk]; have := chk_openings ts (t :: k); simpa [openings] using this
theorem chk_closings (ts : List Tag) (k : List Tag) : chk (closings ts) (ts.reverse ++ k) = some k := by
  unfold closings
  generalize ts.reverse = us
  induction us with
  | nil => rfl
  | cons t us ih => simp only [List.map_cons, List.cons_append, chk, if_true]; exact ih

/-- callout list items are table rows -/
def icon (c : Cfg) (v : Variant) : Bool := decide (v = .callout) && (match c.attrs with
  | some m => m.icons != .text
  | none => false)

/-- the document is a page of its own -/
def alone (c : Cfg) : Bool := !c.inline && !(c.cell.getD false) && !c.embedded

/-- what entering does to the open elements -/
def ent (c : Cfg) : Call → Option (List Tag × List Tag)
  | .content => some ([], if c.embedded then [] else [.div])
  | .preamble t => some ([], if t then [.div, .div] else [])
  | .toc pos => some (if pos = .preamble then [.div] else [], [.div])
  | .tocLevel => some ([], [.ul])
  | .tocNode => some ([], [.a, .li])
  | .tocContent | .part | .simpleContent _ | .compoundContent | .passthrough _ | .descriptionText _ | .descriptionBlock | .itemBlocks _ => some ([], [])
  | .section _ => some ([], [.div])
  | .partTitle => some ([], [.h 1])
  | .partIntro t => some ([], if t then [.div, .div] else [.div])
  | .partIntroContent t => some (if t then [.div] else [], [.div])
  | .sidebar _ => some ([], [.div, .div])
  | .openBlock b => some ([], [if b.isAbstract then .blockquote else .div, .div])
  | .example b => some ([], [.div, if b.collapsible then .details else .div])
  | .quote .. | .quotedParagraph _ => some ([], [.blockquote, .div])
  | .verse .. => some ([], [.pre, .div])
  | .literal _ => some ([], [.pre, .div, .div])
  | .image .. => some ([], [.div])
  | .admonition .. => some ([], [.td, .tr, .table, .div])
  | .quoteAttribution b _ => some ([if b.context = .verse then .pre else .blockquote], [.div])
  | .quoteCite _ has => some (if has then [] else [.blockquote], if has then [.cite] else [.div])
  | .discreteHeading l => some ([], [headingTag l])
  | .unorderedList _ => some ([], [.ul, .div])
  | .orderedList _ => some ([], [.ol, .div])
  | .table _ => some ([], [.table])
  | .tableSection t => some ([], [sectionTag t])
  | .row => some ([], [.tr])
  | .cell k t => some ([], (match k with
      | .asciidoc => [.div]
      | .literal => [.pre, .div]
      | .paragraphs _ => []) ++ [if isTh k t then .th else .td])
  | .cellParagraph st t _ => some ([], (cellParagraphTags st t).reverse)
  | .itemPrincipal v _ => if v = .callout ∧ c.attrs = none then none else some ([], if icon c v then [.td, .tr] else [.p, .li])
  | .term n =>
    if c.horizontal then if c.glossary then none else some ([], [.td, .tr])
    else if c.qanda then if c.glossary then none else some ([], [.em, .p] ++ if n = 1 then [.li] else [])
    else some ([], [.dt])
  | .description => some ([], if c.horizontal then [.td] else if c.qanda then [] else [.dd])
  | .calloutList _ => c.attrs.map fun m => ([], [if m.icons = .text then .ol else .table, .div])
  | .sectionHeading i => c.attrs.map fun m => ([], (if i.hasId && m.sectlinks then [.a] else []) ++ [headingTag i.level])
  | .header => c.attrs.map fun m => ([], if !m.embedded && !m.noheader then [.div] else [])
  | .footer => c.attrs.map fun m => ([], if !m.embedded && !m.nofooter then [.div] else [])
  | .body => if c.embedded || c.inline || c.cell.isSome then some (if alone c then [.head] else [], if alone c then [.body] else []) else none
  | _ => none

/-- what leaving does to the open elements -/
def lea (c : Cfg) : Call → Option (List Tag × List Tag)
  | .content => some (if c.embedded then [] else [.div], [])
  | .preamble t => some (if t then [.div, .div] else [], [])
  | .toc pos => some ([.div], if pos = .preamble then [.div] else [])
  | .tocLevel => some ([.ul], [])
  | .tocNode => some ([.li], [])
  | .tocContent => some ([.a], [])
  | .part | .simpleContent _ | .compoundContent | .passthrough _ | .descriptionText _ | .descriptionBlock => some ([], [])
  | .section i => some (if i.level = 1 then [.div, .div] else [.div], [])
  | .partTitle => some ([.h 1], [])
  | .partIntro _ | .partIntroContent _ => some ([.div], [])
  | .sidebar _ => some ([.div, .div], [])
  | .openBlock b => some ([if b.isAbstract then .blockquote else .div, .div], [])
  | .example b => some ([.div, if b.collapsible then .details else .div], [])
  | .quote b has | .verse b has => some (if has then [.div] else [if b.context = .verse then .pre else .blockquote, .div], [])
  | .quotedParagraph _ => some ([.div], [])
  | .literal _ => some ([.pre, .div, .div], [])
  | .image .. => some ([.div], [])
  | .admonition .. => some ([.td, .tr, .table, .div], [])
  | .quoteAttribution _ hasCite => some ([.div], if hasCite then [.div] else [])
  | .quoteCite _ has => some (if has then [.cite, .div] else [.div], [])
  | .discreteHeading l => some ([headingTag l], [])
  | .unorderedList _ => some ([.ul, .div], [])
  | .orderedList _ => some ([.ol, .div], [])
  | .table _ => some ([.table], [])
  | .tableSection t => some ([sectionTag t], [])
  | .row => some ([.tr], [])
  | .cell k t => some ((if isTh k t then [.th] else (match k with
      | .asciidoc => [.div]
      | .literal => [.pre, .div]
      | .paragraphs _ => []) ++ [.td]), [])
  | .cellParagraph st t _ => some ((cellParagraphTags st t).reverse, [])
  | .itemPrincipal v _ => if v = .callout ∧ c.attrs = none then none else some (if icon c v then [.td] else [.p], [])
  | .itemBlocks v => if v = .callout ∧ c.attrs = none then none else some (if icon c v then [.tr] else [.li], [])
  | .term _ => some (if c.horizontal then [.td] else if c.qanda then [.em, .p] else [.dt], [])
  | .description => some (if c.horizontal then [.td, .tr] else if c.qanda then [.li] else [.dd], [])
  | .calloutList _ => c.attrs.map fun m => ([if m.icons = .text then .ol else .table, .div], [])
  | .sectionHeading i => c.attrs.map fun m => ((if i.hasId && m.sectlinks then [.a] else []) ++ [headingTag i.level], if i.level = 1 then [.div] else [])
  | .header => c.attrs.map fun m => (if !m.embedded && !m.noheader then [.div] else [], [])
  | .footer => c.attrs.map fun m => (if !m.embedded && !m.nofooter then [.div] else [], [])
  | .body => if c.embedded || c.inline || c.cell.isSome then some (if alone c then [.body, .html] else [], []) else none
  | _ => none

theorem iconItem_eq {c : Cfg} {s : State} (h : Ok c s) {v : Variant} (hv : ¬ (v = .callout ∧ c.attrs = none)) : iconItem s.cur v = icon c v := by
  unfold iconItem icon
  by_cases e : v = .callout
  · cases ha : c.attrs with
    | none => exact absurd ⟨e, ha⟩ hv
    | some m => simp [e, h.att m ha]
  · simp [e]

theorem standalone_eq {c : Cfg} {s : State} (h : Ok c s) (hc : (c.embedded || c.inline || c.cell.isSome) = true) : s.cur.standalone = alone c := by
  unfold Frame.standalone alone
  rw [h.emb, h.inl]
  cases he : c.embedded <;> cases hi : c.inline <;> simp
  cases hb : c.cell with
  | none => simp [he, hi, hb] at hc
  | some b => simp [h.cel b hb]

theorem footnotes_neutral : ∀ (fs : List (Option Text × List Tok)) (i : Nat), (∀ f ∈ fs, Neutral f.2) → Neutral (footnoteItems fs i)
  | [], _, _ => .nil
  | (id, b) :: fs, i, h => by
    have h1 := footnotes_neutral fs (i + 1) (fun f hf => h f (by simp [hf]))
    have h2 : Neutral ([.opening .div, .opening .a, .footnoteDef i, .closing .a] ++ b ++ [.closing .div]) := fun k => by
      simp only [List.append_assoc, chk_append, List.cons_append, List.nil_append, chk]
      simp [chk_append, h (id, b) (by simp) _, chk]
    exact h2.append h1

theorem renderFootnotes_neutral {fs : List (Option Text × List Tok)} (h : ∀ f ∈ fs, Neutral f.2) : Neutral (renderFootnotes fs) := by
  intro k
  simp only [renderFootnotes, List.append_assoc, List.cons_append, List.nil_append, chk]
  simp [chk_append, footnotes_neutral fs 1 h _, chk]

theorem chk_frame : ∀ (w : List Tok) {a b : List Tag}, chk w a = some b → ∀ k, chk w (a ++ k) = some (b ++ k)
  | [], a, b, h, k => by cases h; rfl
  | .opening t :: w, a, b, h, k => chk_frame w (a := t :: a) h k
  | .closing t :: w, a, b, h, k => by
    cases a with
    | nil => cases h
    | cons u a =>
      simp only [chk] at h
      split at h
      · next e => subst e; simp only [List.cons_append, chk, if_true]; exact chk_frame w h k
      · cases h
  | .void _ :: w, _, _, h, k | .text _ :: w, _, _, h, k | .gen _ :: w, _, _, h, k | .caption .. :: w, _, _, h, k | .footnote _ :: w, _, _, h, k
  | .footnoteRef _ :: w, _, _, h, k | .footnoteDef _ :: w, _, _, h, k => chk_frame w (by simpa [chk] using h) k

theorem R.pushA {c : Cfg} {s t : State} {x y : List Tag} {ts : List Tok} (h : R c s t x y) (hk : (chk ts y).isSome = true) : R c s (t.push ts) x ((chk ts y).getD []) := by
  obtain ⟨z, hz⟩ := Option.isSome_iff_exists.1 hk
  rw [hz]
  exact R.push (chk_frame ts hz) h
theorem R.pushIfA {c : Cfg} {s t : State} {x y : List Tag} {b : Bool} {ts : List Tok} (h : R c s t x y) (hk : (chk (if b then ts else []) y).isSome = true) :
    R c s (t.pushIf b ts) x ((chk (if b then ts else []) y).getD []) := by
  obtain ⟨z, hz⟩ := Option.isSome_iff_exists.1 hk
  rw [hz]
  exact R.pushIf (chk_frame _ hz) h
theorem R.cast {c : Cfg} {s t : State} {x y z : List Tag} (h : R c s t x y) (e : y = z) : R c s t x z := e ▸ h

macro "grows" h:ident : tactic => `(tactic| (
  with_reducible apply R.cast
  repeat (first
    | (with_reducible exact R.refl $h _)
    | (with_reducible apply R.title)
    | (with_reducible apply R.pushA)
    | (with_reducible apply R.pushIfA))
  all_goals try (simp [chk]; done)))

theorem enter_grows {c : Cfg} {s t : State} {call : Call} {a b : List Tag} (h : Ok c s) (hs : c.simple = none) (hc : ent c call = some (a, b)) (e : enter call s = some t) :
    R c s t a b := by
  cases call <;> simp only [ent] at hc <;> try (cases hc; done)
  all_goals try (cases hc; simp only [enter] at e; cases e; grows h; done)
  case body =>
    split at hc
    case isFalse => cases hc
    case isTrue hb =>
      simp only [enter, standalone_eq h hb] at e
      cases hc; cases e
      cases alone c <;> grows h
  case header =>
    obtain ⟨m, hm, e1⟩ := Option.map_eq_some_iff.1 hc
    simp only [enter, h.att m hm] at e
    cases e1; cases e
    cases (!m.embedded && !m.noheader) <;> grows h
  case content =>
    simp only [enter, h.emb] at e
    cases hc; cases e
    cases c.embedded <;> grows h
  case footer =>
    obtain ⟨m, hm, e1⟩ := Option.map_eq_some_iff.1 hc
    cases e1
    simp only [enter] at e
    cases e
    have h1 : R c s (s.pushIf (!s.footnotes.isEmpty && !s.cur.inCell) (renderFootnotes s.footnotes)) [] [] := by
      refine R.pushIf (fun k => ?_) (R.refl h _)
      split
      · exact renderFootnotes_neutral h.foot k
      · rfl
    refine R.trans h1 ?_
    have h2 := h1.1
    rw [h2.att m hm]
    generalize s.pushIf _ _ = s2 at h2
    cases (!m.embedded && !m.nofooter) <;> grows h2
  case preamble t => simp only [enter] at e; cases hc; cases e; cases t <;> grows h
  case toc pos =>
    simp only [enter] at e; cases hc; cases e
    have h1 : R c s (s.pushIf (pos = .preamble) [.closing .div]) (if pos = .preamble then [.div] else []) [] := by
      by_cases hp : pos = .preamble <;> simp only [hp, if_true, if_false, decide_true, decide_false] <;> grows h
    refine R.push (fun k => ?_) (R.flags _ ?_ (fun h => ⟨h.1, h.2, h.3, h.4, h.5, h.6, h.7, h.8, h.9, h.10, h.11⟩) h1)
    · simp [chk]
    · rfl
  case «section» i =>
    simp only [enter] at e; cases hc
    split at e
    · cases e; grows h
    · cases e
  case sectionHeading i =>
    obtain ⟨m, hm, e1⟩ := Option.map_eq_some_iff.1 hc
    cases e1
    simp only [enter] at e; cases e
    have h1 : R c s (s.push [.opening (headingTag i.level)]) [] [headingTag i.level] := by grows h
    have h2 : R c s ((s.push [.opening (headingTag i.level)]).pushIf (i.hasId && (s.push [.opening (headingTag i.level)]).cur.attrs.sectanchors) [.opening .a, .closing .a])
        [] [headingTag i.level] := by
      refine R.pushIf (fun k => ?_) h1
      split <;> simp [chk]
    refine R.pushIf (fun k => ?_) h2
    rw [h2.1.att m hm]
    split <;> simp [chk]
  case partIntro t => simp only [enter] at e; cases hc; cases e; cases t <;> grows h
  case partIntroContent t => simp only [enter] at e; cases hc; cases e; cases t <;> grows h
  case «example» b =>
    simp only [enter] at e; cases hc
    cases hb : b.collapsible with
    | false => simp only [hb, if_false, Bool.false_eq_true] at e ⊢; cases e; grows h
    | true =>
      simp only [hb, if_true] at e ⊢
      cases e
      have h1 : R c s (s.push [.opening .details, .opening .summary]) [] [.summary, .details] := by grows h
      refine R.push (y := [.summary, .details]) (fun k => by simp [chk]) ?_
      split
      · refine R.push (y := [.summary, .details]) (fun k => h1.1.alt _) ?_
        exact ⟨h1.1.noAlt, h1.2.1, h1.2.2⟩
      · exact R.push (fun k => rfl) h1
  case image b t l =>
    simp only [enter] at e; cases hc; cases e
    cases l <;> grows h
  case quoteCite b has =>
    simp only [enter] at e; cases hc; cases e
    cases has <;> grows h
  case calloutList b =>
    obtain ⟨m, hm, e1⟩ := Option.map_eq_some_iff.1 hc
    simp only [enter, h.att m hm] at e
    cases e1; cases e
    grows h
  case term n =>
    simp only [enter, h.hor, h.qan] at e
    cases hh : c.horizontal
    case true =>
      simp only [hh, if_true] at hc e
      cases hg : c.glossary
      · simp only [h.glo hg, hg, if_false, Bool.false_eq_true] at e hc
        cases hc; cases e; grows h
      · simp only [hg, if_true] at hc; cases hc
    case false =>
      simp only [hh, if_false, Bool.false_eq_true] at hc e
      cases hq : c.qanda
      case false =>
        simp only [hq, if_false, Bool.false_eq_true, ite_self] at hc e
        cases hc; cases e; grows h
      case true =>
        simp only [hq, if_true] at hc e
        cases hg : c.glossary
        · simp only [h.glo hg, hg, if_false, Bool.false_eq_true] at e hc
          cases hc; cases e
          by_cases hn : n = 1 <;> simp only [hn, if_true, if_false, decide_true, decide_false] <;> grows h
        · simp only [hg, if_true] at hc; cases hc
  case description =>
    simp only [enter, h.hor, h.qan] at e
    cases hc
    cases hh : c.horizontal <;> cases hq : c.qanda <;> simp only [hh, hq, if_true, if_false, Bool.false_eq_true, Bool.not_true, Bool.not_false] at e ⊢ <;> cases e <;> grows h
  case descriptionText =>
    simp only [enter] at e; cases hc; cases e
    exact R.flags _ rfl (fun h => ⟨h.1, h.2, h.3, h.4, h.5, h.6, h.7, h.8, fun b hb => (by rw [hs] at hb; cases hb), h.10, h.11⟩) (R.refl h _)
  case itemPrincipal v _ =>
    split at hc
    case isTrue => cases hc
    case isFalse hv =>
      simp only [enter, iconItem_eq h hv] at e
      cases hc; cases e
      cases icon c v <;> grows h
  case cell k t =>
    simp only [enter] at e; cases hc
    cases k <;> cases e <;> grows h
  case cellParagraph st t _ =>
    simp only [enter] at e; cases hc; cases e
    exact R.push (fun k => chk_openings _ k) (R.refl h _)

theorem leave_grows {c : Cfg} {s t : State} {call : Call} {a b : List Tag} (h : Ok c s) (hs : c.simple = none) (hc : lea c call = some (a, b)) (e : exit call s = some t) :
    R c s t a b := by
  cases call <;> simp only [lea] at hc <;> try (cases hc; done)
  all_goals try (cases hc; simp only [exit] at e; cases e; grows h; done)
  case body =>
    split at hc
    case isFalse => cases hc
    case isTrue hb =>
      simp only [exit, standalone_eq h hb] at e
      cases hc; cases e
      cases alone c <;> grows h
  case header =>
    obtain ⟨m, hm, e1⟩ := Option.map_eq_some_iff.1 hc
    simp only [exit, h.att m hm] at e
    cases e1; cases e
    cases (!m.embedded && !m.noheader) <;> grows h
  case content =>
    simp only [exit, h.emb] at e
    cases hc; cases e
    cases c.embedded <;> grows h
  case footer =>
    obtain ⟨m, hm, e1⟩ := Option.map_eq_some_iff.1 hc
    simp only [exit, h.att m hm] at e
    cases e1; cases e
    cases (!m.embedded && !m.nofooter) <;> grows h
  case preamble t => simp only [exit] at e; cases hc; cases e; cases t <;> grows h
  case toc pos =>
    simp only [exit] at e; cases hc; cases e
    have h1 : R c s (s.pushIf (pos ≠ .preamble) [.closing .div]) [.div] (if pos = .preamble then [.div] else []) := by
      by_cases hp : pos = .preamble <;> simp only [hp, if_true, if_false, decide_true, decide_false, ne_eq, not_true, not_false_eq_true] <;> grows h
    exact R.flags _ rfl (fun h => ⟨h.1, h.2, h.3, h.4, h.5, h.6, h.7, h.8, h.9, h.10, h.11⟩) h1
  case «section» i =>
    simp only [exit] at e; cases hc; cases e
    by_cases hi : i.level = 1 <;> simp only [hi, if_true, if_false] <;> grows h
  case sectionHeading i =>
    obtain ⟨m, hm, e1⟩ := Option.map_eq_some_iff.1 hc
    cases e1
    simp only [exit, h.att m hm, Bool.and_comm m.sectlinks] at e; cases e
    by_cases hi : i.level = 1 <;> cases (i.hasId && m.sectlinks) <;> simp only [hi, if_true, if_false, decide_true, decide_false, Bool.false_eq_true] <;> grows h
  case quote b has =>
    simp only [exit, exitQuote] at e; cases hc; cases e
    cases has <;> grows h
  case verse b has =>
    simp only [exit, exitQuote] at e; cases hc; cases e
    cases has <;> grows h
  case image b t l =>
    simp only [exit] at e; cases hc; cases e
    refine R.push (y := [.div]) (fun k => by simp [chk]) ?_
    cases t with
    | none => exact R.title (R.refl h _)
    | some t =>
      have h1 := R.renderTitle h [.gen t] (fun _ => rfl) b [.div]
      dsimp only
      split
      · exact ⟨h1.1.noAlt, h1.2.1, h1.2.2⟩
      · exact h1
  case quoteAttribution b has =>
    simp only [exit] at e; cases hc; cases e
    cases has <;> grows h
  case quoteCite b has =>
    simp only [exit] at e; cases hc; cases e
    cases has <;> grows h
  case calloutList b =>
    obtain ⟨m, hm, e1⟩ := Option.map_eq_some_iff.1 hc
    simp only [exit, h.att m hm] at e
    cases e1; cases e
    grows h
  case term n =>
    simp only [exit, h.hor, h.qan] at e
    cases hc
    cases hh : c.horizontal <;> cases hq : c.qanda <;> simp only [hh, hq, if_true, if_false, Bool.false_eq_true, Bool.not_true, Bool.not_false] at e ⊢ <;> cases e <;> grows h
  case description =>
    simp only [exit, h.hor, h.qan] at e
    cases hc
    cases hh : c.horizontal <;> cases hq : c.qanda <;> simp only [hh, hq, if_true, if_false, Bool.false_eq_true, Bool.not_true, Bool.not_false] at e ⊢ <;> cases e <;> grows h
  case descriptionText =>
    simp only [exit] at e; cases hc; cases e
    exact R.flags _ rfl (fun h => ⟨h.1, h.2, h.3, h.4, h.5, h.6, h.7, h.8, fun b hb => (by rw [hs] at hb; cases hb), h.10, h.11⟩) (R.refl h _)
  case itemPrincipal v _ =>
    split at hc
    case isTrue => cases hc
    case isFalse hv =>
      simp only [exit, iconItem_eq h hv] at e
      cases hc; cases e
      cases icon c v <;> grows h
  case itemBlocks v =>
    split at hc
    case isTrue => cases hc
    case isFalse hv =>
      simp only [exit, iconItem_eq h hv] at e
      cases hc; cases e
      cases icon c v <;> grows h
  case cell k t =>
    simp only [exit] at e; cases hc
    cases ht : isTh k t
    · simp only [ht, if_false, Bool.false_eq_true] at e ⊢
      cases k <;> cases e <;> grows h
    · simp only [ht, if_true] at e ⊢
      cases e; grows h
  case cellParagraph st t _ =>
    simp only [exit] at e; cases hc; cases e
    exact R.push (fun k => chk_closings _ k) (R.refl h _)

end Verif.Html.Bal

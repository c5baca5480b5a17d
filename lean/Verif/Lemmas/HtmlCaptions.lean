import Verif.Spec.Captions
import Verif.Lemmas.EvalOrder
import Verif.Lemmas.Html
/-! Lemmas about the HTML backend: numbered captions. -/
set_option linter.unusedSectionVars false
set_option linter.unusedVariables false
set_option linter.unusedSimpArgs false
namespace Verif.Html.Cap
open Verif.Ast Verif.Eval Verif.Html Verif.Spec.Eval Verif.Spec.Html Verif.Spec.Captions

theorem captionsIn_append (a b : List Tok) : captionsIn (a ++ b) = captionsIn a ++ captionsIn b := by
  induction a with
  | nil => rfl
  | cons t a ih => cases t <;> simp [captionsIn, ih]

theorem captionsIn_seg {b : Bool} {xs : List Tok} (h : Seg b xs) : captionsIn xs = [] := by
  induction h with
  | element t ht _ ih => simp [captionsIn, captionsIn_append, ih]
  | xref _ ih => simp [captionsIn, captionsIn_append, ih]
  | append _ _ ih1 ih2 => simp [captionsIn_append, ih1, ih2]
  | _ => rfl

/-- no captions outside the main buffer -/
def CI (s : State) : Prop := captionsIn s.cur.alt = [] ∧ ∀ f ∈ s.footnotes, captionsIn f.2 = []

/-- what counts for captions -/
def CS (s : State) : List (Kind × Text × Nat) × Meta × Nat × Nat × Nat × Nat :=
  (captionsIn s.cur.html, s.cur.attrs, s.cur.tableNum, s.cur.figureNum, s.cur.exampleNum, s.cur.listingNum)

/-- nothing happens that counts for captions -/
def Quiet (s t : State) : Prop := CI s → CI t ∧ CS t = CS s

theorem Quiet.refl (s : State) : Quiet s s := fun h => ⟨h, rfl⟩
theorem Quiet.trans {s t u : State} (h1 : Quiet s t) (h2 : Quiet t u) : Quiet s u := fun h =>
  ⟨(h2 (h1 h).1).1, (h2 (h1 h).1).2.trans (h1 h).2⟩
theorem Quiet.push {s u : State} (h : Quiet s u) {ts : List Tok} (ht : captionsIn ts = []) : Quiet s (u.push ts) :=
  h.trans fun h => ⟨h, by simp [CS, State.push, Frame.push, captionsIn_append, ht]⟩
theorem Quiet.pushIf {s u : State} (h : Quiet s u) {c : Bool} {ts : List Tok} (ht : captionsIn ts = []) : Quiet s (u.pushIf c ts) := by
  cases c
  · exact h
  · exact h.push ht
theorem Quiet.flags {s u : State} (h : Quiet s u) (f : Frame) (e1 : f.html = u.cur.html) (e2 : f.alt = u.cur.alt)
    (e3 : f.attrs = u.cur.attrs) (e4 : f.tableNum = u.cur.tableNum) (e5 : f.figureNum = u.cur.figureNum)
    (e6 : f.exampleNum = u.cur.exampleNum) (e7 : f.listingNum = u.cur.listingNum) : Quiet s { u with cur := f } :=
  h.trans fun h => ⟨⟨by simp only [e2]; exact h.1, h.2⟩, by simp [CS, e1, e3, e4, e5, e6, e7]⟩
theorem takeCaption_none (f : Frame) (b : BlockInfo) (h : kindOf b.context = none) :
    captionsIn (takeCaption f b).1 = [] ∧ (takeCaption f b).2 = f := by
  unfold takeCaption
  split
  · exact ⟨rfl, rfl⟩
  · revert h
    cases b.context <;> intro h <;> first | exact ⟨rfl, rfl⟩ | cases h
theorem Quiet.bufferedTitle {s u : State} (h : Quiet s u) {b : BlockInfo} (hb : kindOf b.context = none) : Quiet s (u.bufferedTitle b) := by
  refine h.trans fun h => ?_
  unfold State.bufferedTitle
  split
  · obtain ⟨h1, h2⟩ := takeCaption_none { u.cur with alt := [] } b hb
    refine ⟨⟨?_, h.2⟩, ?_⟩
    · simp only [renderBlockTitle, h2, Frame.push]; rfl
    · simp [CS, renderBlockTitle, h2, Frame.push, captionsIn_append, h1, h.1, captionsIn]
  · exact ⟨h, rfl⟩
theorem Quiet.discardAlt {s u : State} (h : Quiet s u) : Quiet s u.discardAlt :=
  h.trans fun h => ⟨⟨rfl, h.2⟩, rfl⟩
theorem quiet_writes {s t : State} (w : Writes s t) : Quiet s t := by
  obtain ⟨seg, fs, rfl, hseg, hfs⟩ := w
  refine fun h => ⟨⟨h.1, ?_⟩, ?_⟩
  · intro f hf
    rcases List.mem_append.1 hf with hf | hf
    · exact h.2 f hf
    · exact captionsIn_seg (hfs f hf)
  · simp [CS, State.ext, captionsIn_append, captionsIn_seg hseg]

/-- The title of a buffered text: the main buffer is put away and brought back. -/
theorem quiet_buffered {s u w : State} (h1 : s.startBuffering = some u) (h2 : Writes u w) :
    Quiet s w.swap ∧ Quiet s w.swapTake.2 := by
  unfold State.startBuffering at h1
  split at h1
  case isFalse => cases h1
  case isTrue halt =>
    cases h1
    obtain ⟨seg, fs, rfl, hseg, hfs⟩ := h2
    have key : ∀ f ∈ s.footnotes ++ fs, (∀ f ∈ s.footnotes, captionsIn f.2 = []) → captionsIn f.2 = [] := by
      intro f hf h
      rcases List.mem_append.1 hf with hf | hf
      · exact h f hf
      · exact captionsIn_seg (hfs f hf)
    constructor
    · refine fun h => ⟨⟨?_, fun f hf => key f hf h.2⟩, rfl⟩
      simp [State.swap, State.ext, halt, captionsIn_seg hseg]
    · exact fun h => ⟨⟨rfl, fun f hf => key f hf h.2⟩, rfl⟩

/-- calls whose `enter_…` has nothing to do with captions -/
def quietCall : Call → Bool
  | .document _ | .example _ | .listing _ | .table _ => false
  | .paragraph b | .sidebar b | .openBlock b | .quote b _ | .verse b _ | .literal b | .admonition b _
  | .quotedParagraph b | .unorderedList b | .orderedList b | .descriptionList b => (kindOf b.context).isNone
  | c => plainCall c

theorem captionsIn_map_opening (ts : List Tag) : captionsIn (openings ts) = [] := by
  unfold openings; induction ts with
  | nil => rfl
  | cons t ts ih => simpa [captionsIn] using ih
theorem captionsIn_map_closing (ts : List Tag) : captionsIn (closings ts) = [] := by
  unfold closings; generalize ts.reverse = us; induction us with
  | nil => rfl
  | cons t ts ih => simpa [captionsIn] using ih

theorem footnoteItems_caps : ∀ (fs : List (Option Text × List Tok)) (i : Nat), (∀ f ∈ fs, captionsIn f.2 = []) → captionsIn (footnoteItems fs i) = []
  | [], _, _ => rfl
  | (id, b) :: fs, i, h => by
    have h1 : captionsIn b = [] := h (id, b) (by simp)
    have h2 := footnoteItems_caps fs (i + 1) (fun f hf => h f (by simp [hf]))
    simp [footnoteItems, captionsIn_append, captionsIn, h1, h2]

macro "quiet" : tactic => `(tactic| repeat' (first
  | exact Quiet.refl _
  | refine Quiet.push ?_ rfl
  | refine Quiet.pushIf ?_ rfl
  | refine Quiet.bufferedTitle ?_ (by assumption)
  | refine Quiet.flags ?_ _ rfl rfl rfl rfl rfl rfl rfl
  | split))

theorem enter_quiet {c : Call} (hc : quietCall c = true) {s t : State} (e : enter c s = some t) : Quiet s t := by
  cases c <;> try (exact Bool.noConfusion hc)
  case footer =>
    simp only [enter] at e; cases e
    refine Quiet.pushIf ?_ rfl
    intro h
    refine Quiet.pushIf (.refl s) ?_ h
    simp [renderFootnotes, captionsIn_append, captionsIn, footnoteItems_caps s.footnotes 1 h.2]
  case image b ti link =>
    simp only [enter] at e; cases e
    cases link <;> exact (Quiet.refl s).push rfl
  case cellParagraph st se _ =>
    simp only [enter] at e; cases e
    exact (Quiet.refl s).push (captionsIn_map_opening _)
  all_goals
    try have hk := Option.isNone_iff_eq_none.1 hc
    simp only [enter] at e
    repeat' split at e
    all_goals (first | (cases e; quiet; done) | (cases e; done))

theorem exit_quiet {c : Call} (hc : plainCall c = true) (hi : ∀ b t l, c ≠ .image b t l) {s t : State} (e : exit c s = some t) : Quiet s t := by
  cases c <;> try (exact Bool.noConfusion hc)
  case image b ti link => exact absurd rfl (hi b ti link)
  case cellParagraph st se _ =>
    simp only [exit] at e; cases e
    exact (Quiet.refl s).push (captionsIn_map_closing _)
  case quote b has => simp only [exit] at e; cases e; refine (Quiet.refl s).push ?_; unfold exitQuote; cases has <;> rfl
  case verse b has => simp only [exit] at e; cases e; refine (Quiet.refl s).push ?_; unfold exitQuote; cases has <;> rfl
  all_goals
    simp only [exit] at e
    repeat' split at e
    all_goals (first | (cases e; quiet; done) | (cases e; done))

/-- the numbers given so far -/
def cnt (s : State) : Kind → Nat
  | .table => s.cur.tableNum
  | .figure => s.cur.figureNum
  | .example => s.cur.exampleNum
  | .listing => s.cur.listingNum

/-- The trace prints the captions of the given blocks. -/
def PC (evs : List Ev) (bs : List Block) : Prop := ∀ s t, CI s → run evs s = some t → CI t ∧
  ∀ rest, captionsIn s.cur.html ++ captions (labels s.cur.attrs) (cnt s) (bs ++ rest) =
    captionsIn t.cur.html ++ captions (labels t.cur.attrs) (cnt t) rest

theorem PC_nil : PC [] [] := by intro s t h e; cases e; exact ⟨h, fun _ => rfl⟩
theorem PC_append {a b : List Ev} {xs ys : List Block} (ha : PC a xs) (hb : PC b ys) : PC (a ++ b) (xs ++ ys) := by
  intro s t h e
  obtain ⟨u, h1, h2⟩ := run_append_some e
  obtain ⟨c1, e1⟩ := ha _ _ h h1
  obtain ⟨c2, e2⟩ := hb _ _ c1 h2
  exact ⟨c2, fun rest => by rw [List.append_assoc, e1, e2]⟩
theorem cnt_eq {s t : State} (h : CS t = CS s) : captionsIn t.cur.html = captionsIn s.cur.html ∧ t.cur.attrs = s.cur.attrs ∧ cnt t = cnt s := by
  simp only [CS, Prod.mk.injEq] at h
  refine ⟨h.1, h.2.1, ?_⟩
  funext k; cases k <;> simp only [cnt, h]
theorem PC_quiet {evs : List Ev} (h : ∀ s t, run evs s = some t → Quiet s t) : PC evs [] := by
  intro s t hs e
  obtain ⟨h1, h2⟩ := h s t e hs
  obtain ⟨h3, h4, h5⟩ := cnt_eq h2
  exact ⟨h1, fun rest => by rw [h3, h4, h5]; rfl⟩
theorem PC_enter (c : Call) (hc : quietCall c = true) : PC [.enter c] [] :=
  PC_quiet fun s t e => enter_quiet hc (by rw [run_one] at e; exact e)
theorem PC_exit (c : Call) (hc : plainCall c = true) (hi : ∀ b t l, c ≠ .image b t l) : PC [.exit c] [] :=
  PC_quiet fun s t e => exit_quiet hc hi (by rw [run_one] at e; exact e)
theorem PC_cast {a : List Ev} {xs ys : List Block} (h : PC a xs) (e : xs = ys) : PC a ys := e ▸ h
theorem quiet_plain {c : Call} (h : quietCall c = true) : plainCall c = true := by
  cases c <;> first | rfl | (exact Bool.noConfusion h)
theorem PC_around (c : Call) (hc : quietCall c = true) (hi : ∀ b t l, c ≠ .image b t l) {a : List Ev} {xs : List Block} (h : PC a xs) :
    PC (around c a) xs :=
  PC_cast (PC_append (a := [.enter c]) (PC_enter c hc) (PC_append h (PC_exit c (quiet_plain hc) hi))) (by simp)
theorem PC_visit (v : Visit) (hv : blockVisit v = true) (hd : ∀ m, v ≠ .declaration m)
    (hb : ∀ b, v = .audio b ∨ v = .video b → kindOf b.context = none) : PC [.visit v] [] := by
  refine PC_quiet fun s t e => ?_
  rw [run_one] at e
  cases v <;> try (exact Bool.noConfusion hv)
  case declaration m => exact absurd rfl (hd m)
  case audio b => have := hb b (.inl rfl); simp only [step, visitCall] at e; cases e; quiet
  case video b => have := hb b (.inr rfl); simp only [step, visitCall] at e; cases e; quiet
  all_goals (simp only [step, visitCall] at e; cases e; quiet)

/-- what a title does -/
def capBlock (b : BlockInfo) (shown : Bool) (ls : Kind → Option Text) : Option (Kind × Text) :=
  if shown = true ∧ b.caption = none then (kindOf b.context).bind fun k => (ls k).map fun l => (k, l) else none

/-- One block at the head of the list whose caption has just been printed. -/
theorem renderBlockTitle_caps (f : Frame) (title : List Tok) (b : BlockInfo) (ht : captionsIn title = []) :
    (renderBlockTitle f title b).attrs = f.attrs ∧ (renderBlockTitle f title b).alt = f.alt ∧
    (match capBlock b true (labels f.attrs) with
      | none => captionsIn (renderBlockTitle f title b).html = captionsIn f.html ∧
        ∀ o fs, cnt ⟨renderBlockTitle f title b, o, fs⟩ = cnt ⟨f, o, fs⟩
      | some (k, l) => ∀ o fs, captionsIn (renderBlockTitle f title b).html = captionsIn f.html ++ [(k, l, cnt ⟨f, o, fs⟩ k + 1)] ∧
        cnt ⟨renderBlockTitle f title b, o, fs⟩ = fun j => if j = k then cnt ⟨f, o, fs⟩ j + 1 else cnt ⟨f, o, fs⟩ j) := by
  obtain ⟨ctx, hasTitle, cap, coll, abs, dl, src, dep, asi⟩ := b
  cases cap with
  | some own =>
    have : takeCaption f ⟨ctx, hasTitle, some own, coll, abs, dl, src, dep, asi⟩ = ([.gen own], f) := rfl
    simp only [renderBlockTitle, this, capBlock, Frame.push]
    refine ⟨trivial, trivial, ?_⟩
    simp [captionsIn_append, captionsIn, ht]
    intro o fs; funext k; cases k <;> rfl
  | none =>
    have hnone : kindOf ctx = none → takeCaption f ⟨ctx, hasTitle, none, coll, abs, dl, src, dep, asi⟩ = ([], f) := by
      intro h; cases ctx <;> first | rfl | cases h
    cases hk : kindOf ctx with
    | none =>
      simp only [renderBlockTitle, hnone hk, capBlock, Frame.push, hk]
      refine ⟨trivial, trivial, ?_⟩
      simp [captionsIn_append, captionsIn, ht]
      intro o fs; funext k; cases k <;> rfl
    | some k =>
      cases ctx <;> cases hk
      case table.refl =>
        cases hl : f.attrs.tableCaption <;> simp only [renderBlockTitle, takeCaption, hl, capBlock, kindOf, labels, Frame.push] <;>
          refine ⟨trivial, trivial, ?_⟩ <;> simp [captionsIn_append, captionsIn, ht, hl, labels] <;> intro o fs
        · funext k; cases k <;> rfl
        · exact ⟨rfl, by funext k; cases k <;> rfl⟩
      case image.refl =>
        cases hl : f.attrs.figureCaption <;> simp only [renderBlockTitle, takeCaption, hl, capBlock, kindOf, labels, Frame.push] <;>
          refine ⟨trivial, trivial, ?_⟩ <;> simp [captionsIn_append, captionsIn, ht, hl, labels] <;> intro o fs
        · funext k; cases k <;> rfl
        · exact ⟨rfl, by funext k; cases k <;> rfl⟩
      case «example».refl =>
        cases hl : f.attrs.exampleCaption <;> simp only [renderBlockTitle, takeCaption, hl, capBlock, kindOf, labels, Frame.push] <;>
          refine ⟨trivial, trivial, ?_⟩ <;> simp [captionsIn_append, captionsIn, ht, hl, labels] <;> intro o fs
        · funext k; cases k <;> rfl
        · exact ⟨rfl, by funext k; cases k <;> rfl⟩
      case listing.refl =>
        cases hl : f.attrs.listingCaption <;> simp only [renderBlockTitle, takeCaption, hl, capBlock, kindOf, labels, Frame.push] <;>
          refine ⟨trivial, trivial, ?_⟩ <;> simp [captionsIn_append, captionsIn, ht, hl, labels] <;> intro o fs
        · funext k; cases k <;> rfl
        · exact ⟨rfl, by funext k; cases k <;> rfl⟩

/-- The one block `b` has been handled between the states. -/
def Handled (b : Block) (s t : State) : Prop := CI s → CI t ∧
  ∀ rest, captionsIn s.cur.html ++ captions (labels s.cur.attrs) (cnt s) (b :: rest) =
    captionsIn t.cur.html ++ captions (labels t.cur.attrs) (cnt t) rest

theorem Handled.quiet_left {b : Block} {s t u : State} (h1 : Quiet s t) (h2 : Handled b t u) : Handled b s u := by
  intro h
  obtain ⟨c1, e1⟩ := h1 h
  obtain ⟨h3, h4, h5⟩ := cnt_eq e1
  obtain ⟨c2, e2⟩ := h2 c1
  exact ⟨c2, fun rest => by rw [← e2, h3, h4, h5]⟩
theorem Handled.quiet_right {b : Block} {s t u : State} (h1 : Handled b s t) (h2 : Quiet t u) : Handled b s u := by
  intro h
  obtain ⟨c1, e1⟩ := h1 h
  obtain ⟨c2, e2⟩ := h2 c1
  obtain ⟨h3, h4, h5⟩ := cnt_eq e2
  exact ⟨c2, fun rest => by rw [e1, h3, h4, h5]⟩

theorem Handled.render {blk : Block} {b : BlockInfo} {s : State} {title : List Tok} (hd : declared blk = none)
    (hb : ∀ ls, captionOf ls blk = capBlock b true ls) (ht : captionsIn title = []) :
    Handled blk s { s with cur := renderBlockTitle s.cur title b } := by
  intro h
  obtain ⟨h1, h2, h3⟩ := renderBlockTitle_caps s.cur title b ht
  refine ⟨⟨by simp only [h2]; exact h.1, h.2⟩, fun rest => ?_⟩
  simp only [captions, hd, hb, h1]
  cases hc : capBlock b true (labels s.cur.attrs) with
  | none =>
    rw [hc] at h3
    simp only [h3.1, h3.2 s.outer s.footnotes]
  | some kl =>
    obtain ⟨k, l⟩ := kl
    rw [hc] at h3
    obtain ⟨h4, h5⟩ := h3 s.outer s.footnotes
    simp only [h4, h5, List.append_assoc, List.singleton_append]

theorem Handled.none {blk : Block} {s : State} (hd : declared blk = none) (hb : ∀ ls, captionOf ls blk = none) : Handled blk s s := by
  intro h
  exact ⟨h, fun rest => by simp only [captions, hd, hb]⟩

theorem Handled.bufferedTitle {blk : Block} {b : BlockInfo} {s : State} (hd : declared blk = .none)
    (hb : ∀ ls, captionOf ls blk = capBlock b b.hasTitle ls) : Handled blk s (s.bufferedTitle b) := by
  unfold State.bufferedTitle
  split
  case isTrue hh =>
    intro h
    exact Handled.quiet_left (t := s.discardAlt) (Quiet.discardAlt (.refl s))
      (Handled.render (s := s.discardAlt) hd (by rw [hh] at hb; exact hb) h.1) h
  case isFalse hh =>
    refine Handled.none hd fun ls => ?_
    rw [hb]; simp [capBlock, hh]

section
variable {inl : List Inline → List Ev} (hi : ∀ ns, I (inl ns))
include hi

theorem PC_inl (ns : List Inline) : PC (inl ns) [] := PC_quiet fun s t e => quiet_writes (run_I (hi ns) _ _ e)

theorem PC_title (b : BlockInfo) (ns : List Inline) : PC (around (.metaTitle b) (inl ns)) [] := by
  refine PC_quiet fun s t e => ?_
  obtain ⟨u, w, h1, h2, h3⟩ := run_around e
  have := quiet_buffered h1 (run_I (hi ns) _ _ h2)
  simp only [exit] at h3; cases h3
  split
  · exact this.2
  · exact this.1

theorem PC_docTitle (ns : List Inline) : PC (around .documentTitle (inl ns)) [] := by
  refine PC_quiet fun s t e => ?_
  obtain ⟨u, w, h1, h2, h3⟩ := run_around e
  have hw := run_I (hi ns) _ _ h2
  simp only [enter] at h1
  by_cases hr : s.cur.rendersTitle = true
  · rw [if_pos hr] at h1; cases h1
    have : w.cur.rendersTitle = true := by
      obtain ⟨seg, fs, rfl, -, -⟩ := hw; exact hr
    simp only [exit, this] at h3; cases h3
    exact (((Quiet.refl s).push rfl).trans (quiet_writes hw)).push rfl
  · rw [if_neg hr] at h1
    have : ¬ w.cur.rendersTitle = true := by
      obtain ⟨seg, fs, rfl, -, -⟩ := hw
      have : u.cur.rendersTitle = s.cur.rendersTitle := by
        unfold State.startBuffering at h1
        split at h1
        · cases h1; rfl
        · cases h1
      show ¬ u.cur.rendersTitle = true
      rw [this]; exact hr
    simp only [exit] at h3; rw [if_neg this] at h3; cases h3
    exact (quiet_buffered h1 hw).2

macro "cap" hi:ident : tactic => `(tactic| repeat' (first
  | assumption
  | exact PC_nil | exact PC_inl $hi _
  | refine PC_around _ rfl (by intro _ _ _ h; cases h) ?_))

theorem simple_PC (b : BlockInfo) (ns : List Inline) : PC (simple inl b ns) [] := by unfold simple; cap hi

theorem evalQuoteAttr_PC (b : BlockInfo) (a c : Option (List Inline)) : PC (evalQuoteAttr inl b a c) [] := by
  cases a <;> cases c <;> simp only [evalQuoteAttr]
  all_goals
    try exact PC_nil
    try (exact PC_append (xs := []) (ys := []) (by cap hi) (by cap hi))
    try (cap hi; done)

mutual
theorem evalTocNode_PC : ∀ t : TocNode, PC (evalTocNode inl t) []
  | .mk _ title [] => by
    simp only [evalTocNode]
    exact PC_around _ rfl (by intro _ _ _ h; cases h) (PC_append (xs := []) (by cap hi) PC_nil)
  | .mk _ title (c :: cs) => by
    have h := PC_append (evalTocNode_PC c) (evalTocNodes_PC cs)
    simp only [evalTocNode]
    exact PC_around _ rfl (by intro _ _ _ h; cases h) (PC_append (xs := []) (by cap hi) (by cap hi))
theorem evalTocNodes_PC : ∀ ts : List TocNode, PC (evalTocNodes inl ts) []
  | [] => PC_nil
  | t :: ts => PC_append (evalTocNode_PC t) (evalTocNodes_PC ts)
end

theorem evalTocAt_PC (toc : Option Toc) (ps : List TocPosition) : PC (evalTocAt inl toc ps) [] := by
  cases toc with
  | none => exact PC_nil
  | some t =>
    have := evalTocNodes_PC hi t.nodes
    simp only [evalTocAt]; split
    · exact PC_nil
    · cap hi

theorem evalTitle_PC (b : BlockInfo) (t : Option (List Inline)) : PC (evalTitle inl b t) [] := by
  cases t with
  | none => exact PC_nil
  | some ns => exact PC_title hi b ns

theorem evalTerms_PC : ∀ (i : Nat) (ts : List (List Inline)), PC (evalTerms inl i ts) []
  | _, [] => PC_nil
  | i, t :: ts => PC_append (xs := []) (by cap hi) (evalTerms_PC (i + 1) ts)

theorem evalCellParagraphs_PC (style : CellStyle) (s : TableSection) (m : Bool) : ∀ ps : List (List Inline), PC (evalCellParagraphs inl style s m ps) []
  | [] => PC_nil
  | p :: ps => PC_append (xs := []) (by cap hi) (evalCellParagraphs_PC style s m ps)

theorem evalDocinfo_PC (e : Bool) (f : Option (List Inline)) : PC (evalDocinfo inl e f) [] := by
  cases f <;> cases e
  · exact PC_nil
  · exact PC_nil
  · exact PC_inl hi _
  · exact PC_nil

theorem evalDocTitle_PC (t : Option (List Inline)) : PC (evalDocTitle inl t) [] := by
  cases t with
  | none => exact PC_nil
  | some ns => exact PC_docTitle hi ns

theorem evalCells_PC (s : TableSection) : ∀ cs : List Cell, cs.all simpleCell = true → PC (evalCells inl s cs) []
  | [], _ => PC_nil
  | c :: cs, h => by
    rw [List.all_cons, Bool.and_eq_true] at h
    refine PC_append (xs := []) ?_ (evalCells_PC s cs h.2)
    cases c with
    | paragraphs style ps =>
      have := fun m => evalCellParagraphs_PC hi style s m ps
      simp only [evalCell]; cap hi; exact this _
    | literal ns => simp only [evalCell]; cap hi
    | asciidoc d => exact absurd h.1 (by simp [simpleCell])
theorem evalEdge_PC (s : TableSection) : ∀ cs : Option (List Cell), (cs.getD []).all simpleCell = true → PC (evalEdge inl s cs) []
  | none, _ => PC_nil
  | some cs, h => by have := evalCells_PC hi s cs h; simp only [evalEdge]; cap hi
theorem evalRows_PC : ∀ rs : List (List Cell), (∀ r ∈ rs, r.all simpleCell = true) → PC (evalRows inl rs) []
  | [], _ => PC_nil
  | r :: rs, h => by
    have h1 := evalCells_PC hi .body r (h r (by simp))
    exact PC_append (xs := []) (by cap hi) (evalRows_PC rs (fun r hr => h r (by simp [hr])))
theorem evalBody_PC (rs : List (List Cell)) (h : ∀ r ∈ rs, r.all simpleCell = true) : PC (evalBody inl rs) [] := by
  have := evalRows_PC hi rs h
  cases rs with
  | nil => exact PC_nil
  | cons r rs => simp only [evalBody]; exact PC_around _ rfl (by intro _ _ _ h; cases h) this

/-- A call around the content of a block, when entering it prints the caption. -/
theorem PC_block {blk : Block} {c : Call} (hc : plainCall c = true) (hi : ∀ b t l, c ≠ .image b t l) {a : List Ev} {xs : List Block}
    (h1 : ∀ s t, enter c s = some t → Handled blk s t) (h2 : PC a xs) : PC (around c a) (blk :: xs) := by
  have : PC [.enter c] [blk] := by
    intro s t hs e
    rw [run_one] at e
    exact h1 s t e hs
  exact PC_cast (PC_append (a := [.enter c]) this (PC_append h2 (PC_exit c hc hi))) (by simp)

/-- the conditions on blocks -/
abbrev ok (b : Block) : Prop := wf b ∧ simpleTable b

end

/-- a block that prints no caption when entered -/
theorem PC_plain {blk : Block} {c : Call} (hc : quietCall c = true) (hi : ∀ b t l, c ≠ .image b t l) {a : List Ev} {xs : List Block}
    (hd : declared blk = none) (hb : ∀ ls, captionOf ls blk = none) (h2 : PC a xs) : PC (around c a) (blk :: xs) := by
  have : PC [] [blk] := by
    intro s t hs e; cases e
    exact (Handled.none hd hb) hs
  exact PC_append (a := []) this (PC_around c hc hi h2)

theorem captionOf_none {info : BlockInfo} {t a c : Option (List Inline)} {x : Content} (h : kindOf info.context = none) (ls : Kind → Option Text) :
    captionOf ls (.mk info t a c x) = none := by
  simp only [captionOf]; rw [h]; split <;> rfl

theorem PC_none {blk : Block} {a : List Ev} {xs : List Block} (hd : declared blk = none) (hb : ∀ ls, captionOf ls blk = none)
    (h : PC a xs) : PC a (blk :: xs) := by
  have : PC [] [blk] := by
    intro s t hs e; cases e
    exact (Handled.none hd hb) hs
  exact PC_append (a := []) this h

theorem enterExample_handled {blk : Block} {b : BlockInfo} (hd : declared blk = none)
    (hb : ∀ ls, captionOf ls blk = capBlock b (b.hasTitle && !b.collapsible) ls) (s t : State) (e : enter (.example b) s = some t) : Handled blk s t := by
  simp only [enter] at e
  split at e
  case isTrue hcol =>
    cases e
    refine Handled.quiet_left (t := s) (.refl s) (Handled.quiet_right (Handled.none hd fun ls => ?_) ?_)
    · rw [hb]; simp [capBlock, hcol]
    · refine Quiet.push ?_ rfl
      split
      · intro h
        exact (((Quiet.refl s).push (ts := [.opening .details, .opening .summary]) rfl).discardAlt.push h.1) h
      · quiet
  case isFalse hcol =>
    cases e
    refine Handled.quiet_left ((Quiet.refl s).push (ts := [.opening .div]) rfl) (Handled.quiet_right (Handled.bufferedTitle hd fun ls => ?_) ((Quiet.refl _).push rfl))
    rw [hb]; simp [hcol]

theorem enterListing_handled {blk : Block} {b : BlockInfo} (hd : declared blk = none)
    (hb : ∀ ls, captionOf ls blk = capBlock b b.hasTitle ls) (s t : State) (e : enter (.listing b) s = some t) : Handled blk s t := by
  simp only [enter] at e
  split at e <;> cases e
  · refine Handled.quiet_left ((Quiet.refl s).push (ts := [.opening .div]) rfl) (Handled.quiet_right (Handled.bufferedTitle hd hb) ?_)
    quiet
  · refine Handled.quiet_left ((Quiet.refl s).push (ts := [.opening .div]) rfl) (Handled.quiet_right (Handled.bufferedTitle hd hb) ?_)
    quiet

theorem enterTable_handled {blk : Block} {b : BlockInfo} (hd : declared blk = none)
    (hb : ∀ ls, captionOf ls blk = capBlock b b.hasTitle ls) (s t : State) (e : enter (.table b) s = some t) : Handled blk s t := by
  simp only [enter] at e
  cases e
  refine Handled.quiet_left ((Quiet.refl s).push (ts := [.opening .table]) rfl) (Handled.quiet_right (Handled.bufferedTitle hd hb) ?_)
  quiet

theorem PC_image {info : BlockInfo} {title a c : Option (List Inline)} {ti : Option Text} {l : Bool} (hctx : info.context = .image) :
    PC (around (.image (view info title) ti l) []) [.mk info title a c (.image ti l)] := by
  intro s t hs e
  obtain ⟨u, w, h1, h2, h3⟩ := run_around e
  cases h2
  have q := enter_quiet (c := .image (view info title) ti l) rfl h1
  refine Handled.quiet_left q ?_ hs
  simp only [exit] at h3; cases h3
  cases ti with
  | none =>
    refine Handled.quiet_right (t := u.bufferedTitle (view info title)) (Handled.bufferedTitle rfl fun ls => ?_) ((Quiet.refl _).push rfl)
    simp only [captionOf, capBlock, showsTitle, view, Option.isSome_none, Bool.or_false]
    congr
  | some x =>
    refine Handled.quiet_right (t := { u with cur := renderBlockTitle u.cur [.gen x] (view info title) }) (Handled.render rfl (fun ls => ?_) rfl) ?_
    · simp only [captionOf, capBlock, showsTitle, view, Option.isSome_some, Bool.or_true]
    · dsimp only
      refine Quiet.push ?_ rfl
      split
      · exact (Quiet.refl _).discardAlt
      · exact .refl _

section
variable {inl : List Inline → List Ev} (hi : ∀ ns, I (inl ns))
include hi

mutual
theorem evalBlock_PC (toc : Option Toc) : ∀ b : Block, AllBlock ok b → PC (evalBlock inl toc b) (blockBlocks b)
  | .mk info title a c content, h => by
    have h1 := evalTitle_PC hi (view info title) title
    have h2 := evalContent_PC toc info title a c content h.1.1 h.1.2 h.2
    exact PC_append h1 h2
theorem evalContent_PC (toc : Option Toc) (info : BlockInfo) (title a c : Option (List Inline)) : ∀ x : Content,
    Fits info.context x = true → simpleTable (.mk info title a c x) → AllContent ok x →
    PC (evalContent inl toc (view info title) a c x) (.mk info title a c x :: contentBlocks x)
  | .simple ns, hf, _, _ => by
    have h1 : ∀ {b}, PC (simple inl b ns) [] := fun {b} => simple_PC hi b ns
    have h2 := evalQuoteAttr_PC hi (view info title) a c
    have h3 := fun {b} => PC_append (h1 (b := b)) h2
    rcases fits_simple hf with h | h | h | h | h | h | h | h | h <;>
      simp only [evalContent, contentBlocks, view, h] <;> simp only [view, h] at h2 h3
    · exact PC_plain rfl (by intro _ _ _ h; cases h) rfl (captionOf_none (by rw [h]; rfl)) h1
    · exact PC_plain rfl (by intro _ _ _ h; cases h) rfl (captionOf_none (by rw [h]; rfl)) h1
    · refine PC_block hi rfl (by intro _ _ _ h; cases h) (enterListing_handled rfl fun ls => ?_) h1
      simp [captionOf, capBlock, showsTitle, h]
    · exact PC_plain rfl (by intro _ _ _ h; cases h) rfl (captionOf_none (by rw [h]; rfl)) h3
    · exact PC_plain rfl (by intro _ _ _ h; cases h) rfl (captionOf_none (by rw [h]; rfl)) h3
    · refine PC_block hi rfl (by intro _ _ _ h; cases h) (enterExample_handled rfl fun ls => ?_) h1
      simp [captionOf, capBlock, showsTitle, h]
    · exact PC_plain rfl (by intro _ _ _ h; cases h) rfl (captionOf_none (by rw [h]; rfl)) (PC_inl hi ns)
    · exact PC_plain rfl (by intro _ _ _ h; cases h) rfl (captionOf_none (by rw [h]; rfl)) h1
    · exact PC_plain rfl (by intro _ _ _ h; cases h) rfl (captionOf_none (by rw [h]; rfl)) h1
  | .compound bs, hf, _, ha => by
    have h0 := evalBlocks_PC toc bs ha
    have h1 : PC (around .compoundContent (evalBlocks inl toc bs)) (blocksBlocks bs) := PC_around _ rfl (by intro _ _ _ h; cases h) h0
    have h2 := evalQuoteAttr_PC hi (view info title) a c
    have h3 := PC_cast (PC_append h1 h2) (List.append_nil _)
    rcases fits_compound hf with h | h | h | h | h <;> simp only [evalContent, contentBlocks, view, h] <;> simp only [view, h] at h2 h3
    · exact PC_plain rfl (by intro _ _ _ h; cases h) rfl (captionOf_none (by rw [h]; rfl)) h1
    · exact PC_plain rfl (by intro _ _ _ h; cases h) rfl (captionOf_none (by rw [h]; rfl)) h3
    · exact PC_plain rfl (by intro _ _ _ h; cases h) rfl (captionOf_none (by rw [h]; rfl)) h1
    · refine PC_block hi rfl (by intro _ _ _ h; cases h) (enterExample_handled rfl fun ls => ?_) h1
      simp [captionOf, capBlock, showsTitle, h]
    · exact PC_plain rfl (by intro _ _ _ h; cases h) rfl (captionOf_none (by rw [h]; rfl)) h1
  | .quoted q at' ci, hf, _, _ => by
    have h := fits_quoted hf
    have h2 := evalQuoteAttr_PC hi (view info title) (some at') ci
    simp only [evalContent, contentBlocks, view, h]
    simp only [view, h] at h2
    exact PC_plain rfl (by intro _ _ _ h; cases h) rfl (captionOf_none (by rw [h]; rfl)) (PC_append (PC_inl hi q) h2)
  | .list v items, hf, _, ha => by
    rcases fits_list hf with ⟨h, hp⟩ | ⟨h, hp⟩
    · simp only [evalContent, contentBlocks, view, h]
      exact PC_plain rfl (by intro _ _ _ h; cases h) rfl (captionOf_none (by rw [h]; rfl)) (evalDescItems_PC toc items hp ha)
    · have h1 := evalItems_PC toc v items hp ha
      rcases h with h | h | h <;> simp only [evalContent, contentBlocks, view, h] <;>
        exact PC_plain rfl (by intro _ _ _ h; cases h) rfl (captionOf_none (by rw [h]; rfl)) h1
  | .section s, hf, _, ha => by
    have h := fits_section hf
    simp only [evalContent, contentBlocks, view, h]
    exact PC_none rfl (captionOf_none (by rw [h]; rfl)) (evalSect_PC toc s ha)
  | .table header rows footer, hf, hs, ha => by
    have h := fits_table hf
    simp only [evalContent, contentBlocks, view, h]
    refine PC_block hi rfl (by intro _ _ _ h; cases h) (enterTable_handled rfl fun ls => ?_)
      (PC_append (PC_append (evalEdge_PC hi .header header hs.2.1) (evalBody_PC hi rows hs.1)) (evalEdge_PC hi .footer footer hs.2.2))
    simp [captionOf, capBlock, showsTitle, h]
  | .image t l, hf, _, _ => by
    have h := fits_image hf
    have := PC_image (title := title) (a := a) (c := c) (ti := t) (l := l) h
    simp only [evalContent, contentBlocks]
    have hv : (view info title).context = .image := h
    rw [hv]; exact this
  | .audioVideo, hf, _, _ => by
    rcases fits_audioVideo hf with h | h <;> simp only [evalContent, contentBlocks, view, h] <;>
      refine PC_none rfl (captionOf_none (by rw [h]; rfl)) (PC_visit _ rfl (by intro m h; cases h) ?_) <;>
      (intro b hb; rcases hb with hb | hb <;> cases hb; rfl)
  | .heading l ns, hf, _, _ => by
    have h := fits_heading hf
    simp only [evalContent, contentBlocks, view, h]
    exact PC_plain rfl (by intro _ _ _ h; cases h) rfl (captionOf_none (by rw [h]; rfl)) (PC_inl hi ns)
  | .declaration m, hf, _, _ => by
    have h := fits_declaration hf
    simp only [evalContent, contentBlocks, view, h]
    intro s t hs e
    rw [run_one] at e
    simp only [step, visitCall] at e; cases e
    refine ⟨hs, fun rest => ?_⟩
    have hl : labels { m with embedded := s.cur.attrs.embedded, inlineDoctype := s.cur.attrs.inlineDoctype } = labels m := by
      funext k; cases k <;> rfl
    simp only [List.singleton_append, captions, declared, hl]
    rfl
  | .empty, hf, _, _ => by
    rcases fits_empty hf with h | h | h | h <;> simp only [evalContent, contentBlocks, view, h, evalOther] <;>
      refine PC_none rfl (captionOf_none (by rw [h]; rfl)) ?_
    · exact PC_visit _ rfl (by intro m h; cases h) (by intro b hb; rcases hb with hb | hb <;> cases hb)
    · exact PC_visit _ rfl (by intro m h; cases h) (by intro b hb; rcases hb with hb | hb <;> cases hb)
    · exact evalTocAt_PC hi toc [.byMacro]
    · exact PC_nil
theorem evalBlocks_PC (toc : Option Toc) : ∀ bs : List Block, AllBlocks ok bs → PC (evalBlocks inl toc bs) (blocksBlocks bs)
  | [], _ => PC_nil
  | b :: bs, h => PC_append (evalBlock_PC toc b h.1) (evalBlocks_PC toc bs h.2)
theorem evalItem_PC (toc : Option Toc) (v : Variant) : ∀ i : Item, isPlain i = true → AllItem ok i → PC (evalItem inl toc v i) (itemBlocks i)
  | .plain p bs, _, h => PC_append (xs := []) (by cap hi) (PC_around _ rfl (by intro _ _ _ h; cases h) (evalBlocks_PC toc bs h))
  | .desc p _ _ bs, h, _ => by cases h
theorem evalItems_PC (toc : Option Toc) (v : Variant) : ∀ is : List Item, is.all isPlain = true → AllItems ok is → PC (evalItems inl toc v is) (itemsBlocks is)
  | [], _, _ => PC_nil
  | i :: is, hp, h => by
    rw [List.all_cons, Bool.and_eq_true] at hp
    exact PC_append (evalItem_PC toc v i hp.1 h.1) (evalItems_PC toc v is hp.2 h.2)
theorem evalDescItem_PC (toc : Option Toc) : ∀ i : Item, (!isPlain i) = true → AllItem ok i → PC (evalDescItem inl toc i) (itemBlocks i)
  | .plain _ _, h, _ => by cases h
  | .desc p ex none [], _, h => PC_append (evalTerms_PC hi 1 (p :: ex)) PC_nil
  | .desc p ex none (b :: bs), _, h => PC_append (evalTerms_PC hi 1 (p :: ex)) (PC_around _ rfl (by intro _ _ _ h; cases h)
      (PC_append (PC_around _ rfl (by intro _ _ _ h; cases h) (evalBlock_PC toc b h.2.1)) (evalDescBlocks_PC toc bs h.2.2)))
  | .desc p ex (some d) bs, _, h => PC_append (xs := []) (evalTerms_PC hi 1 (p :: ex)) (PC_around .description rfl (by intro _ _ _ h; cases h)
      (PC_append (PC_around (.descriptionText _) rfl (by intro _ _ _ h; cases h) (evalBlock_PC toc d h.1)) (evalDescBlocks_PC toc bs h.2)))
theorem evalDescItems_PC (toc : Option Toc) : ∀ is : List Item, is.all (fun i => !isPlain i) = true → AllItems ok is →
    PC (evalDescItems inl toc is) (itemsBlocks is)
  | [], _, _ => PC_nil
  | i :: is, hp, h => by
    rw [List.all_cons, Bool.and_eq_true] at hp
    exact PC_append (evalDescItem_PC toc i hp.1 h.1) (evalDescItems_PC toc is hp.2 h.2)
theorem evalDescBlocks_PC (toc : Option Toc) : ∀ bs : List Block, AllBlocks ok bs → PC (evalDescBlocks inl toc bs) (blocksBlocks bs)
  | [], _ => PC_nil
  | b :: bs, h => PC_append (PC_around _ rfl (by intro _ _ _ h; cases h) (evalBlock_PC toc b h.1)) (evalDescBlocks_PC toc bs h.2)
theorem evalSect_PC (toc : Option Toc) : ∀ s : Sect, AllSect ok s → PC (evalSect inl toc s) (sectBlocks s)
  | .mk info h bs, ha => PC_around _ rfl (by intro _ _ _ h; cases h) (PC_append (xs := []) (by cap hi) (evalBlocks_PC toc bs ha))
end

theorem evalSects_PC (toc : Option Toc) : ∀ ss : List Sect, AllSects ok ss → PC (evalSects inl toc ss) (sectsBlocks ss)
  | [], _ => PC_nil
  | s :: ss, h => PC_append (evalSect_PC hi toc s h.1) (evalSects_PC toc ss h.2)
theorem evalPart_PC (toc : Option Toc) : ∀ p : Part, AllPart ok p → PC (evalPart inl toc p) (partBlocks p)
  | .mk t bt none ss, h => PC_around _ rfl (by intro _ _ _ h; cases h) (PC_append (xs := []) (PC_append (xs := []) (by cap hi) PC_nil) (evalSects_PC hi toc ss h.2))
  | .mk t none (some bs) ss, h => PC_around _ rfl (by intro _ _ _ h; cases h) (PC_append (PC_append (xs := []) (by cap hi)
      (PC_around _ rfl (by intro _ _ _ h; cases h) (PC_append PC_nil (PC_around _ rfl (by intro _ _ _ h; cases h) (evalBlocks_PC hi toc bs h.1))))) (evalSects_PC hi toc ss h.2))
  | .mk t (some ns) (some bs) ss, h => PC_around _ rfl (by intro _ _ _ h; cases h) (PC_append (PC_append (xs := []) (by cap hi)
      (PC_around _ rfl (by intro _ _ _ h; cases h) (PC_append (PC_inl hi ns) (PC_around _ rfl (by intro _ _ _ h; cases h) (evalBlocks_PC hi toc bs h.1))))) (evalSects_PC hi toc ss h.2))
theorem evalParts_PC (toc : Option Toc) : ∀ ps : List Part, AllParts ok ps → PC (evalParts inl toc ps) (ps.flatMap partBlocks)
  | [], _ => PC_nil
  | p :: ps, h => PC_append (evalPart_PC hi toc p h.1) (evalParts_PC toc ps h.2)

theorem visit_PC : ∀ (d : Doc) (attrs : Meta) (title : Option (List Inline)) (toc : Option Toc) (head header footer : Option (List Inline)) (content : DocContent),
    d = .mk attrs title toc head header footer content → AllDoc ok d → ∀ s t, CI s → captionsIn s.cur.html = [] → cnt s = (fun _ => 0) → run (visit inl d) s = some t →
    captionsIn t.cur.html = captions (labels attrs) (fun _ => 0) (docBlocks d) := by
  intro d attrs title toc head header footer content hd h s t hs hc hn e
  subst hd
  have h1 := evalTocAt_PC hi toc [.auto, .left, .right]
  have h2 : PC (evalDocContent inl toc title.isSome content) (docBlocks (.mk attrs title toc head header footer content)) := by
    have h : AllDocContent ok content := h
    cases content with
    | blocks bs => exact evalBlocks_PC hi toc bs h
    | sections pre ss =>
      cases pre with
      | none => exact evalSects_PC hi toc ss h.2
      | some bs => exact PC_append (PC_around _ rfl (by intro _ _ _ h; cases h) (PC_cast (PC_append (evalBlocks_PC hi toc bs h.1) (evalTocAt_PC hi toc [.preamble])) (by simp [introBlocks]))) (evalSects_PC hi toc ss h.2)
    | parts pre o ps c =>
      cases pre with
      | none => exact PC_append (PC_append (evalSects_PC hi toc o h.2.1) (evalParts_PC hi toc ps h.2.2.1)) (evalSects_PC hi toc c h.2.2.2)
      | some bs => exact PC_append (PC_append (PC_around _ rfl (by intro _ _ _ h; cases h) (PC_cast (PC_append (PC_append (evalBlocks_PC hi toc bs h.1) (evalSects_PC hi toc o h.2.1)) (evalTocAt_PC hi toc [.preamble])) (by simp [introBlocks]))) (evalParts_PC hi toc ps h.2.2.1)) (evalSects_PC hi toc c h.2.2.2)
  have hd := evalDocinfo_PC hi attrs.embedded
  have ht := evalDocTitle_PC hi title
  simp only [visit] at e
  obtain ⟨u, w, e1, e2, e3⟩ := run_around e
  have hu : CI u ∧ captionsIn u.cur.html = [] ∧ u.cur.attrs = attrs ∧ cnt u = (fun _ => 0) := by
    simp only [enter] at e1; cases e1
    unfold State.pushIf
    split
    · refine ⟨hs, ?_, rfl, ?_⟩
      · simp [State.push, Frame.push, captionsIn_append, hc, captionsIn]
      · rw [← hn]; funext k; cases k <;> rfl
    · refine ⟨hs, hc, rfl, ?_⟩
      rw [← hn]; funext k; cases k <;> rfl
  have hin := PC_append (hd head) (PC_around .body rfl (by intro _ _ _ h; cases h) (PC_append (PC_append (PC_append (PC_append (PC_append (hd header)
    (PC_around .header rfl (by intro _ _ _ h; cases h) ht)) h1) (PC_around .content rfl (by intro _ _ _ h; cases h) h2)) (PC_around .footer rfl (by intro _ _ _ h; cases h) PC_nil)) (hd footer)))
  obtain ⟨cw, ew⟩ := hin u w hu.1 e2
  have := ew []
  simp only [exit] at e3; cases e3
  rw [hu.2.1, hu.2.2.1, hu.2.2.2] at this
  simpa [captions] using this.symm

end



end Verif.Html.Cap

import Verif.Lemmas.Html
/-! Lemmas about the HTML backend: links of cross references are not nested. -/
set_option linter.unusedSectionVars false
set_option linter.unusedVariables false
namespace Verif.Html
open Verif.Ast Verif.Eval Verif.Spec.Html

/-- reads output, knowing whether the link of a cross reference is open; fails when
one is opened or closed at the wrong time -/
def scan : List Tok → Bool → Option Bool
  | [], f => some f
  | t :: ts, f =>
    if t = .opening .xrefA then (if f then none else scan ts true)
    else if t = .closing .xrefA then (if f then scan ts false else none)
    else scan ts f

def Flat (xs : List Tok) : Prop := scan xs false = some false

theorem scan_append (a b : List Tok) (f : Bool) : scan (a ++ b) f = (scan a f).bind (scan b) := by
  induction a generalizing f with
  | nil => rfl
  | cons t a ih => simp only [List.cons_append, scan]; by_cases h1 : t = .opening .xrefA <;> by_cases h2 : t = .closing .xrefA <;> cases f <;> simp_all

theorem scan_count {xs : List Tok} {f g : Bool} (h : scan xs f = some g) :
    xs.count (.opening .xrefA) + f.toNat = xs.count (.closing .xrefA) + g.toNat := by
  induction xs generalizing f with
  | nil => simp only [scan, Option.some.injEq] at h; subst h; rfl
  | cons t xs ih =>
    simp only [scan] at h
    split at h
    case isTrue ht =>
      split at h
      · cases h
      · have := ih h; subst ht; simp_all
    case isFalse ht =>
      split at h
      case isTrue ht' =>
        split at h
        · have := ih h; subst ht'; simp_all; omega
        · cases h
      case isFalse ht' =>
        have := ih h
        rw [List.count_cons_of_ne ht, List.count_cons_of_ne ht']; exact this

theorem scan_noNested {xs : List Tok} {g : Bool} (h : scan xs false = some g) : NoNestedXref xs := by
  intro pre post e
  subst e
  rw [scan_append] at h
  cases hp : scan pre false with
  | none => rw [hp] at h; cases h
  | some b =>
    rw [hp] at h
    have hc := scan_count hp
    cases b with
    | true => simp [scan] at h
    | false => simpa using hc

theorem Flat.append {a b : List Tok} (ha : Flat a) (hb : Flat b) : Flat (a ++ b) := by
  unfold Flat at *; rw [scan_append, ha]; exact hb

theorem scan_seg {b : Bool} {xs : List Tok} (h : Seg b xs) : scan xs b = some b := by
  induction h with
  | nil => rfl
  | void t => rfl
  | text t => rfl
  | gen t => rfl
  | footnote n => rfl
  | footnoteRef n => rfl
  | @element b t ht xs _ ih => simp [scan, scan_append, ih, ht]
  | xref _ ih => simp [scan, scan_append, ih]
  | append _ _ ih1 ih2 => rw [scan_append, ih1]; exact ih2

theorem Flat.seg {b : Bool} {xs : List Tok} (h : Seg b xs) : Flat xs := scan_seg h.weaken

/-- not the link of a cross reference -/
def okTok (t : Tok) : Bool := t ≠ .opening .xrefA ∧ t ≠ .closing .xrefA

theorem Flat.ok {xs : List Tok} (h : xs.all okTok = true) : Flat xs := by
  unfold Flat
  induction xs with
  | nil => rfl
  | cons t xs ih => simp_all [okTok, scan]

/-- between blocks no cross reference is open, in any buffer -/
structure FlatFrame (f : Frame) : Prop where
  depth : f.xrefDepth = 0
  html : Flat f.html
  alt : Flat f.alt

structure FlatState (s : State) : Prop where
  cur : FlatFrame s.cur
  outer : ∀ f ∈ s.outer, FlatFrame f
  foot : ∀ f ∈ s.footnotes, Flat f.2

theorem FlatState.push {s : State} (h : FlatState s) {ts : List Tok} (ht : Flat ts) : FlatState (s.push ts) :=
  ⟨⟨h.cur.depth, h.cur.html.append ht, h.cur.alt⟩, h.outer, h.foot⟩
theorem FlatState.pushIf {s : State} (h : FlatState s) {c : Bool} {ts : List Tok} (ht : Flat ts) : FlatState (s.pushIf c ts) := by
  cases c
  · exact h
  · exact h.push ht
theorem FlatState.flags {s : State} (h : FlatState s) (f : Frame) (e1 : f.html = s.cur.html) (e2 : f.alt = s.cur.alt)
    (e3 : f.xrefDepth = s.cur.xrefDepth) : FlatState { s with cur := f } :=
  ⟨⟨e3 ▸ h.cur.depth, e1 ▸ h.cur.html, e2 ▸ h.cur.alt⟩, h.outer, h.foot⟩
theorem takeCaption_flat (f : Frame) (b : BlockInfo) : Flat (takeCaption f b).1 ∧ (takeCaption f b).2.html = f.html ∧
    (takeCaption f b).2.alt = f.alt ∧ (takeCaption f b).2.xrefDepth = f.xrefDepth := by
  unfold takeCaption
  repeat' split
  all_goals exact ⟨.ok rfl, rfl, rfl, rfl⟩
theorem renderBlockTitle_flat {f : Frame} (h : FlatFrame f) {t : List Tok} (ht : Flat t) (b : BlockInfo) : FlatFrame (renderBlockTitle f t b) := by
  obtain ⟨h1, h2, h3, h4⟩ := takeCaption_flat f b
  refine ⟨h4 ▸ h.depth, ?_, h3 ▸ h.alt⟩
  simp only [renderBlockTitle, Frame.push, h2]
  refine h.html.append (((Flat.append (.ok ?_) h1).append ht).append (.ok ?_)) <;>
    (simp only [titleTag]; split <;> rfl)
theorem FlatState.bufferedTitle {s : State} (h : FlatState s) (b : BlockInfo) : FlatState (s.bufferedTitle b) := by
  unfold State.bufferedTitle
  split
  · exact ⟨renderBlockTitle_flat (f := { s.cur with alt := [] }) ⟨h.cur.depth, h.cur.html, .ok rfl⟩ h.cur.alt b, h.outer, h.foot⟩
  · exact h
theorem FlatState.discardAlt {s : State} (h : FlatState s) : FlatState s.discardAlt :=
  ⟨⟨h.cur.depth, h.cur.html, .ok rfl⟩, h.outer, h.foot⟩
theorem FlatState.swap {s : State} (h : FlatState s) : FlatState s.swap :=
  ⟨⟨h.cur.depth, h.cur.alt, h.cur.html⟩, h.outer, h.foot⟩
theorem FlatState.startBuffering {s t : State} (h : FlatState s) (e : s.startBuffering = some t) : FlatState t := by
  unfold State.startBuffering at e
  split at e
  · cases e; exact h.swap
  · cases e
theorem FlatState.swapTake {s : State} (h : FlatState s) : FlatState s.swapTake.2 :=
  ⟨⟨h.cur.depth, h.cur.alt, .ok rfl⟩, h.outer, h.foot⟩
theorem FlatState.writes {s t : State} (h : FlatState s) (w : Writes s t) : FlatState t := by
  obtain ⟨seg, fs, rfl, hseg, hfs⟩ := w
  refine ⟨⟨h.cur.depth, h.cur.html.append (.seg hseg), h.cur.alt⟩, h.outer, ?_⟩
  intro f hf
  rcases List.mem_append.1 hf with hf | hf
  · exact h.foot f hf
  · exact .seg (hfs f hf)

theorem footnoteItems_flat : ∀ (fs : List (Option Text × List Tok)) (i : Nat), (∀ f ∈ fs, Flat f.2) → Flat (footnoteItems fs i)
  | [], _, _ => .ok rfl
  | (id, b) :: fs, i, h => by
    have h1 : Flat b := h (id, b) (by simp)
    have h2 := footnoteItems_flat fs (i + 1) (fun f hf => h f (by simp [hf]))
    exact ((Flat.append (.ok rfl) h1).append (.ok rfl)).append h2
theorem renderFootnotes_flat (fs : List (Option Text × List Tok)) (h : ∀ f ∈ fs, Flat f.2) : Flat (renderFootnotes fs) :=
  (Flat.append (.ok rfl) (footnoteItems_flat fs 1 h)).append (.ok rfl)

macro "flat" h:ident : tactic => `(tactic| repeat' (first
  | assumption
  | exact $h
  | refine FlatState.push ?_ (.ok rfl)
  | refine FlatState.pushIf ?_ (.ok rfl)
  | refine FlatState.bufferedTitle ?_ _
  | refine FlatState.flags ?_ _ rfl rfl rfl
  | split))

theorem all_openings (ts : List Tag) (h : .xrefA ∉ ts) : (openings ts).all okTok = true := by
  simp only [openings, List.all_map, List.all_eq_true]; intro t ht; simp only [Function.comp, okTok]; simp; intro e; exact h (e ▸ ht)
theorem all_closings (ts : List Tag) (h : .xrefA ∉ ts) : (closings ts).all okTok = true := by
  simp only [closings, List.all_map, List.all_eq_true]; intro t ht; simp only [Function.comp, okTok]; simp; intro e; exact h (e ▸ List.mem_reverse.1 ht)
theorem cellParagraphTags_ok (st : CellStyle) (t : TableSection) : .xrefA ∉ cellParagraphTags st t := by
  cases st <;> cases t <;> decide

theorem enter_flat {c : Call} (hc : plainCall c = true) {s t : State} (h : FlatState s) (e : enter c s = some t) : FlatState t := by
  cases c <;> try (exact Bool.noConfusion hc)
  case footer =>
    simp only [enter] at e; cases e
    exact .pushIf (.pushIf h (renderFootnotes_flat _ h.foot)) (.ok rfl)
  case image b ti link =>
    simp only [enter] at e; cases e
    cases link <;> exact h.push (.ok rfl)
  case «example» b =>
    simp only [enter] at e
    split at e
    · cases e
      refine .push ?_ (.ok rfl)
      have h1 := h.push (ts := [.opening .details, .opening .summary]) (.ok rfl)
      split
      · exact h1.discardAlt.push h1.cur.alt
      · exact h1.push (.ok rfl)
    · cases e; flat h
  case cellParagraph st se _ =>
    simp only [enter] at e; cases e
    exact h.push (.ok (all_openings _ (cellParagraphTags_ok st se)))
  case tableSection se => simp only [enter] at e; cases e; cases se <;> exact h.push (.ok rfl)
  all_goals
    simp only [enter] at e
    repeat' split at e
    all_goals (first | (cases e; flat h; done) | (cases e; done))

theorem exit_flat {c : Call} (hc : plainCall c = true) {s t : State} (h : FlatState s) (e : exit c s = some t) : FlatState t := by
  cases c <;> try (exact Bool.noConfusion hc)
  case cellParagraph st se _ =>
    simp only [exit] at e; cases e
    exact h.push (.ok (all_closings _ (cellParagraphTags_ok st se)))
  case tableSection se => simp only [exit] at e; cases e; cases se <;> exact h.push (.ok rfl)
  case image b ti link =>
    simp only [exit] at e; cases e
    refine .push ?_ (.ok rfl)
    cases ti with
    | none => exact h.bufferedTitle b
    | some t =>
      have h1 : FlatState { s with cur := renderBlockTitle s.cur [.gen t] b } := ⟨renderBlockTitle_flat h.cur (.ok rfl) b, h.outer, h.foot⟩
      dsimp only
      split
      · exact h1.discardAlt
      · exact h1
  case quote b has => simp only [exit] at e; cases e; refine h.push (.ok ?_); unfold exitQuote; cases has <;> by_cases hv : b.context = .verse <;> simp [hv, okTok]
  case verse b has => simp only [exit] at e; cases e; refine h.push (.ok ?_); unfold exitQuote; cases has <;> by_cases hv : b.context = .verse <;> simp [hv, okTok]
  all_goals
    simp only [exit] at e
    repeat' split at e
    all_goals (first | (cases e; flat h; done) | (cases e; done))

theorem visit_flat {v : Visit} (hv : blockVisit v = true) {s t : State} (h : FlatState s) (e : visitCall v s = some t) : FlatState t := by
  cases v <;> try (exact Bool.noConfusion hv)
  all_goals (simp only [visitCall] at e; cases e; flat h)

theorem closed_flat (inl : List Inline → List Ev) (hi : ∀ ns, I (inl ns)) :
    Closed inl (fun evs => ∀ s t, FlatState s → run evs s = some t → FlatState t) where
  nil := by intro s t h e; cases e; exact h
  app := by
    intro a b ha hb s t h e
    obtain ⟨u, h1, h2⟩ := run_append_some e
    exact hb _ _ (ha _ _ h h1) h2
  enter := by intro c hc s t h e; rw [run_one] at e; exact enter_flat hc h e
  exit := by intro c hc s t h e; rw [run_one] at e; exact exit_flat hc h e
  visit := by intro v hv s t h e; rw [run_one] at e; exact visit_flat hv h e
  panic := by intro s t h e; cases e
  text := by intro ns s t h e; exact h.writes (run_I (hi ns) _ _ e)
  title := by
    intro b ns s t h e
    obtain ⟨u, w, h1, h2, h3⟩ := run_around e
    have hw := (h.startBuffering h1).writes (run_I (hi ns) _ _ h2)
    simp only [exit] at h3
    cases h3
    split
    · exact hw.swapTake
    · exact hw.swap
  docTitle := by
    intro ns s t h e
    obtain ⟨u, w, h1, h2, h3⟩ := run_around e
    have hu : FlatState u := by
      simp only [enter] at h1
      split at h1
      · cases h1; exact h.push (.ok rfl)
      · exact h.startBuffering h1
    have hw := hu.writes (run_I (hi ns) _ _ h2)
    simp only [exit] at h3
    cases h3
    split
    · exact hw.push (.ok rfl)
    · exact hw.swapTake
  cell := by
    intro a ha s t h e
    obtain ⟨u, w, h1, h2, h3⟩ := run_around e
    simp only [enter] at h1; cases h1
    have hu : FlatState { cur := { inCell := true }, outer := s.cur :: s.outer, footnotes := s.footnotes } := ⟨⟨rfl, .ok rfl, .ok rfl⟩, by
      intro f hf
      rcases List.mem_cons.1 hf with rfl | hf
      · exact h.cur
      · exact h.outer f hf, h.foot⟩
    have hw := ha _ _ hu h2
    simp only [exit] at h3
    split at h3
    · cases h3
    case h_2 f fs ho =>
      cases h3
      have hf := hw.outer f (by rw [ho]; simp)
      exact ⟨⟨hf.depth, hf.html.append hw.cur.html, hf.alt⟩, fun g hg => hw.outer g (by rw [ho]; simp [hg]), hw.foot⟩

theorem render_flat {anchors : Text → Option Anchor} {n : Nat} {d : Doc} {out : List Tok} (h : render anchors n d = some out) : Flat out := by
  unfold render at h
  cases hr : run (trace (htmlEnv anchors) n d) {} with
  | none => rw [hr] at h; cases h
  | some s =>
    rw [hr] at h; cases h
    exact (visit_C (closed_flat _ (inlines_I _ n)) d {} s ⟨⟨rfl, .ok rfl, .ok rfl⟩, by simp, by simp⟩ hr).cur.html

end Verif.Html

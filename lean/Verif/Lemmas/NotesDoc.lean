import Verif.Lemmas.Notes
import Verif.Lemmas.EvalAll
/-! Footnotes and buffered text in whole documents. -/
set_option linter.unusedSectionVars false
set_option linter.unusedVariables false
set_option linter.unusedSimpArgs false
namespace Verif.Html.Notes
open Verif.Ast Verif.Eval Verif.Html Verif.Spec.Eval Verif.Spec.Html Verif.Spec.Notes

/-- where in a document a trace is: in a description that starts on the line of its
term, in a table cell -/
structure Cfg where
  desc : Bool := false
  cell : Bool := false

/-- the state agrees with it -/
def Ok (c : Cfg) (s : State) : Prop :=
  s.cur.attrs.inlineDoctype = false ∧ (s.cur.simpleTerm = true → c.desc = true) ∧ s.cur.inCell = c.cell

/-- the flags that matter are kept -/
def Keep (s t : State) : Prop :=
  t.outer = s.outer ∧ t.cur.attrs = s.cur.attrs ∧ (t.cur.simpleTerm = true → s.cur.simpleTerm = true) ∧ t.cur.inCell = s.cur.inCell

theorem Keep.refl (s : State) : Keep s s := ⟨rfl, rfl, id, rfl⟩
theorem Keep.trans {s t u : State} (h : Keep s t) (k : Keep t u) : Keep s u :=
  ⟨k.1.trans h.1, k.2.1.trans h.2.1, fun x => h.2.2.1 (k.2.2.1 x), k.2.2.2.trans h.2.2.2⟩
theorem Ok.keep {c : Cfg} {s t : State} (h : Ok c s) (k : Keep s t) : Ok c t :=
  ⟨by rw [k.2.1]; exact h.1, fun x => h.2.1 (k.2.2.1 x), by rw [k.2.2.2]; exact h.2.2⟩

/-- nothing is shown -/
def Q (s t : State) : Prop := Keep s t ∧ t.footnotes = s.footnotes ∧ t.cur.alt = s.cur.alt ∧ shown t.cur.html = shown s.cur.html

theorem Q.refl (s : State) : Q s s := ⟨.refl s, rfl, rfl, rfl⟩
theorem Q.trans {s t u : State} (h : Q s t) (k : Q t u) : Q s u :=
  ⟨h.1.trans k.1, k.2.1.trans h.2.1, k.2.2.1.trans h.2.2.1, k.2.2.2.trans h.2.2.2⟩
theorem Q.push {s t : State} (h : Q s t) {ts : List Tok} (e : shown ts = []) : Q s (t.push ts) := by
  refine h.trans ⟨⟨rfl, rfl, id, rfl⟩, rfl, rfl, ?_⟩
  simp [State.push, Frame.push, shown_append, e]
theorem Q.pushIf {s t : State} (h : Q s t) {b : Bool} {ts : List Tok} (e : shown ts = []) : Q s (t.pushIf b ts) := by
  unfold State.pushIf; split
  · exact h.push e
  · exact h
theorem Q.flags {s t : State} (h : Q s t) (f : Frame) (h1 : f.html = t.cur.html) (h2 : f.alt = t.cur.alt) (h3 : f.attrs = t.cur.attrs)
    (h4 : f.simpleTerm = true → t.cur.simpleTerm = true) (h5 : f.inCell = t.cur.inCell) : Q s { t with cur := f } :=
  h.trans ⟨⟨rfl, h3, h4, h5⟩, rfl, h2, by simp only [h1]⟩

/-- the buffered title is shown -/
def Opened (s t : State) : Prop :=
  Keep s t ∧ t.footnotes = s.footnotes ∧ t.cur.alt = [] ∧ shown t.cur.html = shown s.cur.html ++ shown s.cur.alt

theorem Opened.left {s t u : State} (h : Q s t) (k : Opened t u) : Opened s u :=
  ⟨h.1.trans k.1, k.2.1.trans h.2.1, k.2.2.1, by rw [k.2.2.2, h.2.2.1, h.2.2.2]⟩
theorem Opened.right {s t u : State} (h : Opened s t) (k : Q t u) : Opened s u :=
  ⟨h.1.trans k.1, k.2.1.trans h.2.1, k.2.2.1.trans h.2.2.1, k.2.2.2.trans h.2.2.2⟩
theorem Opened.quiet {s t : State} (h : Q s t) (e : s.cur.alt = []) : Opened s t :=
  ⟨h.1, h.2.1, h.2.2.1.trans e, by rw [h.2.2.2, e]; simp [shown]⟩

theorem takeCaption_keeps (f : Frame) (b : BlockInfo) : (takeCaption f b).2.html = f.html ∧ (takeCaption f b).2.alt = f.alt ∧ (takeCaption f b).2.attrs = f.attrs ∧
    (takeCaption f b).2.simpleTerm = f.simpleTerm ∧ (takeCaption f b).2.inCell = f.inCell ∧ shown (takeCaption f b).1 = [] := by
  unfold takeCaption
  repeat' split
  all_goals exact ⟨rfl, rfl, rfl, rfl, rfl, rfl⟩

theorem Opened.bufferedTitle (s : State) (b : BlockInfo) (h : b.hasTitle = false → s.cur.alt = []) : Opened s (s.bufferedTitle b) := by
  unfold State.bufferedTitle
  split
  case isTrue =>
    obtain ⟨h1, h2, h3, h4, h5, h6⟩ := takeCaption_keeps { s.cur with alt := [] } b
    refine ⟨⟨rfl, h3, ?_, h5⟩, rfl, h2, ?_⟩
    · intro x; rw [← h4]; exact x
    · simp [renderBlockTitle, Frame.push, shown_append, h1, h6, shown]
  case isFalse hh => exact .quiet (.refl s) (h (by simpa using hh))

macro "hush" : tactic => `(tactic| repeat' (first
  | exact Q.refl _
  | refine Q.push ?_ rfl
  | refine Q.pushIf ?_ rfl
  | refine Q.flags ?_ _ rfl rfl rfl id rfl
  | refine Q.flags ?_ _ rfl rfl rfl (by intro h; cases h) rfl
  | split))

/-- calls whose `enter_…` shows nothing -/
def hushed : Call → Bool
  | .document _ | .footer | .descriptionText _ | .paragraph _ | .sidebar _ | .openBlock _ | .example _ | .quote .. | .verse .. | .listing _ | .literal _
  | .admonition .. | .quotedParagraph _ | .unorderedList _ | .orderedList _ | .descriptionList _ | .table _ => false
  | c => plainCall c

theorem shown_openings (ts : List Tag) : shown (openings ts) = [] := by
  unfold openings; induction ts with
  | nil => rfl
  | cons t ts ih => simpa [shown] using ih
theorem shown_closings (ts : List Tag) : shown (closings ts) = [] := by
  unfold closings; generalize ts.reverse = us; induction us with
  | nil => rfl
  | cons t ts ih => simpa [shown] using ih

theorem enter_hushed {c : Call} (hc : hushed c = true) {s t : State} (e : enter c s = some t) : Q s t := by
  cases c <;> try (exact Bool.noConfusion hc)
  case image b ti link => simp only [enter] at e; cases e; cases link <;> exact (Q.refl s).push rfl
  case cellParagraph st se _ => simp only [enter] at e; cases e; exact (Q.refl s).push (shown_openings _)
  case quoteCite b has => simp only [enter] at e; cases e; cases has <;> exact (Q.refl s).push rfl
  case itemPrincipal v _ => simp only [enter] at e; cases e; refine (Q.refl s).push ?_; split <;> rfl
  all_goals
    simp only [enter] at e
    repeat' split at e
    all_goals (first | (cases e; hush; done) | (cases e; done))

theorem exit_hushed {c : Call} (hc : plainCall c = true) (hi : ∀ b t l, c ≠ .image b t l) {s t : State} (e : exit c s = some t) : Q s t := by
  cases c <;> try (exact Bool.noConfusion hc)
  case image b ti link => exact absurd rfl (hi b ti link)
  case cellParagraph st se _ => simp only [exit] at e; cases e; exact (Q.refl s).push (shown_closings _)
  case quote b has => simp only [exit] at e; cases e; refine (Q.refl s).push ?_; unfold exitQuote; cases has <;> rfl
  case verse b has => simp only [exit] at e; cases e; refine (Q.refl s).push ?_; unfold exitQuote; cases has <;> rfl
  case «section» i => simp only [exit] at e; cases e; refine (Q.refl s).push ?_; split <;> rfl
  case quoteCite b has => simp only [exit] at e; cases e; cases has <;> exact (Q.refl s).push rfl
  all_goals
    simp only [exit] at e
    repeat' split at e
    all_goals (first | (cases e; hush; done) | (cases e; done))

theorem hushed_plain {c : Call} (h : hushed c = true) : plainCall c = true := by
  cases c <;> first | rfl | (exact Bool.noConfusion h)

/-- the page between two states -/
def L (s t : State) (as : List Atom) : Prop :=
  shown t.cur.html = shown s.cur.html ++ (layout (notesOf s.footnotes) as).1 ∧ notesOf t.footnotes = (layout (notesOf s.footnotes) as).2

theorem L.refl (s : State) : L s s [] := by simp [L, layout]
theorem L.trans {s t u : State} {as bs : List Atom} (h : L s t as) (k : L t u bs) : L s u (as ++ bs) := by
  unfold L at *
  rw [layout_append, ← h.2, k.1, h.1, k.2]
  exact ⟨by simp, rfl⟩
theorem L.quiet {s t : State} (h : Q s t) : L s t [] := by simp [L, layout, h.2.1, h.2.2.2]
theorem L.cast {s t : State} {as bs : List Atom} (h : L s t as) (e : as = bs) : L s t bs := e ▸ h
theorem Lays.L {s t : State} {as : List Atom} (h : Lays s t as) : L s t as ∧ Keep s t ∧ t.cur.alt = s.cur.alt := by
  obtain ⟨seg, fs, rfl, h1, h2⟩ := h
  refine ⟨⟨?_, h2⟩, ⟨rfl, rfl, id, rfl⟩, rfl⟩
  simp [State.ext, shown_append, h1]

section
variable {inl : List Inline → List Ev}

/-- the texts and footnotes of texts -/
def A (inl : List Inline → List Ev) (T : List (List Inline)) : List Atom := T.flatMap fun ns => atoms none (inl ns)

theorem A_append (S T : List (List Inline)) : A inl (S ++ T) = A inl S ++ A inl T := by simp [A]

/-- the trace lays out the texts -/
def PL (inl : List Inline → List Ev) (c : Cfg) (evs : List Ev) (T : List (List Inline)) : Prop :=
  (∀ ns ∈ T, flat false (inl ns) = true) → ∀ s t, Ok c s → s.cur.alt = [] → run evs s = some t →
    Ok c t ∧ t.outer = s.outer ∧ t.cur.alt = [] ∧ L s t (A inl T)

/-- the same when a title may wait in the buffer -/
def PB (inl : List Inline → List Ev) (c : Cfg) (b : BlockInfo) (evs : List Ev) (T : List (List Inline)) : Prop :=
  (∀ ns ∈ T, flat false (inl ns) = true) → ∀ s t, Ok c s → (b.hasTitle = false → s.cur.alt = []) → run evs s = some t →
    Ok c t ∧ t.outer = s.outer ∧ t.cur.alt = [] ∧
    shown t.cur.html = shown s.cur.html ++ shown s.cur.alt ++ (layout (notesOf s.footnotes) (A inl T)).1 ∧
    notesOf t.footnotes = (layout (notesOf s.footnotes) (A inl T)).2

variable {c : Cfg}

theorem PL_nil : PL inl c [] [] := by intro _ s t h1 h2 e; cases e; exact ⟨h1, rfl, h2, .refl s⟩
theorem PL_append {a b : List Ev} {S T : List (List Inline)} (ha : PL inl c a S) (hb : PL inl c b T) : PL inl c (a ++ b) (S ++ T) := by
  intro hf s t h1 h2 e
  obtain ⟨u, e1, e2⟩ := run_append_some e
  obtain ⟨a1, a2, a3, a4⟩ := ha (fun ns h => hf ns (by simp [h])) s u h1 h2 e1
  obtain ⟨b1, b2, b3, b4⟩ := hb (fun ns h => hf ns (by simp [h])) u t a1 a3 e2
  exact ⟨b1, b2.trans a2, b3, (a4.trans b4).cast (A_append S T).symm⟩
theorem PL_cast {a : List Ev} {S T : List (List Inline)} (h : PL inl c a S) (e : S = T) : PL inl c a T := e ▸ h
theorem PL_quiet {evs : List Ev} (h : ∀ s t, run evs s = some t → Q s t) : PL inl c evs [] := by
  intro _ s t h1 h2 e
  have q := h s t e
  exact ⟨h1.keep q.1, q.1.1, q.2.2.1.trans h2, .quiet q⟩
theorem PL_around (k : Call) (hc : hushed k = true) (hi : ∀ b t l, k ≠ .image b t l) {a : List Ev} {T : List (List Inline)} (h : PL inl c a T) :
    PL inl c (around k a) T := by
  have h1 : PL inl c [.enter k] [] := PL_quiet fun s t e => enter_hushed hc (by rw [run_one] at e; exact e)
  have h2 : PL inl c [.exit k] [] := PL_quiet fun s t e => exit_hushed (hushed_plain hc) hi (by rw [run_one] at e; exact e)
  exact PL_cast (PL_append h1 (PL_append h h2)) (by simp)

theorem PB_of_PL {b : BlockInfo} {evs : List Ev} {T : List (List Inline)} (h : PL inl c evs T) (hb : b.hasTitle = false) : PB inl c b evs T := by
  intro hf s t h1 h2 e
  obtain ⟨a1, a2, a3, a4, a5⟩ := h hf s t h1 (h2 hb) e
  refine ⟨a1, a2, a3, ?_, a5⟩
  rw [a4, h2 hb]; simp [shown]

/-- a call around the content of a block, when entering it shows the title -/
theorem PB_block {b : BlockInfo} {k : Call} (hc : plainCall k = true) (hi : ∀ b t l, k ≠ .image b t l) {a : List Ev} {T : List (List Inline)}
    (ho : ∀ s t, Ok c s → (b.hasTitle = false → s.cur.alt = []) → enter k s = some t → Opened s t) (h : PL inl c a T) : PB inl c b (around k a) T := by
  intro hf s t h1 h2 e
  obtain ⟨u, w, e1, e2, e3⟩ := run_around e
  have o := ho s u h1 h2 e1
  obtain ⟨a1, a2, a3, a4⟩ := h hf u w (h1.keep o.1) o.2.2.1 e2
  have q := exit_hushed hc hi e3
  refine ⟨a1.keep q.1, (q.1.1.trans a2).trans o.1.1, q.2.2.1.trans a3, ?_, ?_⟩
  · rw [q.2.2.2, a4.1, o.2.2.2, o.2.1]
  · rw [q.2.1, a4.2, o.2.1]

theorem Opened.push {s u : State} (h : Opened s u) {ts : List Tok} (e : shown ts = []) : Opened s (u.push ts) := h.right ((Q.refl _).push e)
theorem Opened.push' {s u : State} {ts : List Tok} (e : shown ts = []) (h : Opened s u) : Opened s (u.push ts) := h.push e
theorem Opened.flags {s t : State} (h : Opened s t) (f : Frame) (h1 : f.html = t.cur.html) (h2 : f.alt = t.cur.alt) (h3 : f.attrs = t.cur.attrs)
    (h4 : f.simpleTerm = true → t.cur.simpleTerm = true) (h5 : f.inCell = t.cur.inCell) : Opened s { t with cur := f } :=
  h.right ((Q.refl _).flags f h1 h2 h3 h4 h5)
theorem Opened.title {s u : State} (q : Q s u) {b : BlockInfo} (h : b.hasTitle = false → s.cur.alt = []) : Opened s (u.bufferedTitle b) :=
  .left q (.bufferedTitle u b fun x => q.2.2.1.trans (h x))

macro "opened" ha:ident : tactic => `(tactic| (
  repeat (first
    | (with_reducible refine Opened.title ?_ $ha)
    | ((with_reducible refine Opened.push' ?_ ?_); (first | rfl | (split <;> rfl))))
  hush))

macro "opens" : tactic => `(tactic| (
  intro s t hs ha e
  simp only [enter] at e; cases e
  opened ha))

theorem open_paragraph {b : BlockInfo} (hd : c.desc = true → b.hasTitle = false) : ∀ s t, Ok c s → (b.hasTitle = false → s.cur.alt = []) →
    enter (.paragraph b) s = some t → Opened s t := by
  intro s t hs ha e
  simp only [enter, hs.1] at e
  simp only [Bool.false_eq_true, if_false] at e
  cases e
  refine Opened.right (t := if s.cur.simpleTerm then s else (s.push [.opening .div]).bufferedTitle b) ?_ (by hush)
  split
  case isTrue h => exact .quiet (.refl s) (ha (hd (hs.2.1 h)))
  case isFalse => exact Opened.left ((Q.refl s).push rfl) (Opened.bufferedTitle _ _ ha)
theorem open_sidebar {b : BlockInfo} : ∀ s t, Ok c s → (b.hasTitle = false → s.cur.alt = []) → enter (.sidebar b) s = some t → Opened s t := by opens
theorem open_openBlock {b : BlockInfo} : ∀ s t, Ok c s → (b.hasTitle = false → s.cur.alt = []) → enter (.openBlock b) s = some t → Opened s t := by opens
theorem open_quote {b : BlockInfo} {x : Bool} : ∀ s t, Ok c s → (b.hasTitle = false → s.cur.alt = []) → enter (.quote b x) s = some t → Opened s t := by opens
theorem open_verse {b : BlockInfo} {x : Bool} : ∀ s t, Ok c s → (b.hasTitle = false → s.cur.alt = []) → enter (.verse b x) s = some t → Opened s t := by opens
theorem open_literal {b : BlockInfo} : ∀ s t, Ok c s → (b.hasTitle = false → s.cur.alt = []) → enter (.literal b) s = some t → Opened s t := by opens
theorem open_admonition {b : BlockInfo} {m : Bool} : ∀ s t, Ok c s → (b.hasTitle = false → s.cur.alt = []) → enter (.admonition b m) s = some t → Opened s t := by opens
theorem open_quotedParagraph {b : BlockInfo} : ∀ s t, Ok c s → (b.hasTitle = false → s.cur.alt = []) → enter (.quotedParagraph b) s = some t → Opened s t := by opens
theorem open_unorderedList {b : BlockInfo} : ∀ s t, Ok c s → (b.hasTitle = false → s.cur.alt = []) → enter (.unorderedList b) s = some t → Opened s t := by opens
theorem open_orderedList {b : BlockInfo} : ∀ s t, Ok c s → (b.hasTitle = false → s.cur.alt = []) → enter (.orderedList b) s = some t → Opened s t := by opens
theorem open_table {b : BlockInfo} : ∀ s t, Ok c s → (b.hasTitle = false → s.cur.alt = []) → enter (.table b) s = some t → Opened s t := by opens
theorem open_listing {b : BlockInfo} : ∀ s t, Ok c s → (b.hasTitle = false → s.cur.alt = []) → enter (.listing b) s = some t → Opened s t := by
  intro s t hs ha e
  simp only [enter] at e
  split at e <;> cases e
  · refine Opened.push (Opened.flags ?_ _ rfl rfl rfl id rfl) rfl
    opened ha
  · opened ha
theorem open_descriptionList {b : BlockInfo} : ∀ s t, Ok c s → (b.hasTitle = false → s.cur.alt = []) → enter (.descriptionList b) s = some t → Opened s t := by
  intro s t hs ha e
  simp only [enter] at e
  split at e <;> cases e <;> opened ha
theorem open_example {b : BlockInfo} : ∀ s t, Ok c s → (b.hasTitle = false → s.cur.alt = []) → enter (.example b) s = some t → Opened s t := by
  intro s t hs ha e
  simp only [enter] at e
  split at e
  case isTrue =>
    cases e
    refine Opened.right ?_ ((Q.refl _).push rfl)
    split
    case isTrue =>
      refine ⟨⟨rfl, rfl, id, rfl⟩, rfl, rfl, ?_⟩
      simp [State.push, Frame.push, State.discardAlt, shown_append, shown]
    case isFalse h => exact .quiet (by hush) (ha (by simpa using h))
  case isFalse =>
    cases e
    opened ha

variable (hi : ∀ ns, I (inl ns))
include hi

theorem PL_inl (ns : List Inline) : PL inl c (inl ns) [ns] := by
  intro hf s t h1 h2 e
  obtain ⟨l, k, a⟩ := (run_lays (hi ns) (hf ns (by simp)) s t e).L
  exact ⟨h1.keep k, k.1, a.trans h2, l.cast (by simp [A])⟩

/-- a title and its block -/
theorem PL_titled {info : BlockInfo} {title : Option (List Inline)} {evs : List Ev} {T : List (List Inline)}
    (ht : title.isSome = true → info.context ≠ .passthrough) (h : PB inl c (Eval.view info title) evs T) :
    PL inl c (evalTitle inl (Eval.view info title) title ++ evs) (optText title ++ T) := by
  intro hf s t h1 h2 e
  cases title with
  | none =>
    obtain ⟨a1, a2, a3, a4, a5⟩ := h (fun ns h => hf ns (by simp [h])) s t h1 (fun _ => h2) e
    refine ⟨a1, a2, a3, ?_, a5⟩
    rw [a4, h2]; simp [shown, optText]
  | some ns =>
    obtain ⟨u, e1, e2⟩ := run_append_some e
    obtain ⟨v, w, e3, e4, e5⟩ := run_around e1
    simp only [enter, State.startBuffering, h2, if_true] at e3
    cases e3
    obtain ⟨seg, fs, rfl, h3, h4⟩ := run_lays (hi ns) (hf ns (by simp [optText])) _ _ e4
    have hp : (Eval.view info (some ns)).context ≠ .passthrough := ht rfl
    simp only [exit, hp, if_false] at e5
    cases e5
    obtain ⟨a1, a2, a3, a4, a5⟩ := h (fun ns h => hf ns (by simp [h])) (s.swap.ext seg fs).swap t ⟨h1.1, h1.2.1, h1.2.2⟩ (fun x => by cases x) e2
    refine ⟨a1, a2, a3, ?_, ?_⟩
    · have f1 : notesOf (s.footnotes ++ fs) = (layout (notesOf s.footnotes) (atoms none (inl ns))).2 := h4
      have f2 : shown seg = (layout (notesOf s.footnotes) (atoms none (inl ns))).1 := h3
      have : A inl (optText (some ns) ++ T) = atoms none (inl ns) ++ A inl T := by simp [A, optText]
      rw [this, layout_append, a4]
      simp [State.swap, State.ext, h2, f2, f1]
    · have f1 : notesOf (s.footnotes ++ fs) = (layout (notesOf s.footnotes) (atoms none (inl ns))).2 := h4
      have : A inl (optText (some ns) ++ T) = atoms none (inl ns) ++ A inl T := by simp [A, optText]
      rw [this, layout_append, a5]
      simp [State.swap, State.ext, f1]

macro "lay" hi:ident : tactic => `(tactic| repeat' (first
  | assumption
  | exact PL_nil | exact PL_inl $hi _
  | refine PL_around _ rfl (by intro _ _ _ h; cases h) ?_))

theorem simple_PL (b : BlockInfo) (ns : List Inline) : PL inl c (simple inl b ns) [ns] := by unfold simple; lay hi

theorem evalQuoteAttr_PL (b : BlockInfo) (a ci : Option (List Inline)) : PL inl c (evalQuoteAttr inl b a ci) (optText a ++ optText ci) := by
  cases a <;> cases ci <;> simp only [evalQuoteAttr, optText, List.nil_append, List.append_nil]
  · exact PL_nil
  · lay hi
  · lay hi
  · exact PL_append (by lay hi) (by lay hi)

mutual
theorem evalTocNode_PL : ∀ t : TocNode, PL inl c (evalTocNode inl t) (tocNodeTexts t)
  | .mk _ title [] => PL_cast (PL_around _ rfl (by intro _ _ _ h; cases h) (PL_append (S := [title]) (by lay hi) PL_nil)) (by simp [tocNodeTexts, tocTexts])
  | .mk _ title (x :: cs) => by
    have h := PL_append (evalTocNode_PL x) (evalTocNodes_PL cs)
    simp only [evalTocNode]
    exact PL_cast (PL_around _ rfl (by intro _ _ _ h; cases h) (PL_append (S := [title]) (T := tocNodeTexts x ++ tocTexts cs) (by lay hi) (by lay hi))) (by simp [tocNodeTexts, tocTexts])
theorem evalTocNodes_PL : ∀ ts : List TocNode, PL inl c (evalTocNodes inl ts) (tocTexts ts)
  | [] => PL_nil
  | t :: ts => PL_append (evalTocNode_PL t) (evalTocNodes_PL ts)
end

theorem evalTocAt_PL (toc : Option Toc) (ps : List TocPosition) : PL inl c (evalTocAt inl toc ps) (tocTextsAt toc ps) := by
  cases toc with
  | none => exact PL_nil
  | some t =>
    simp only [evalTocAt, tocTextsAt]
    by_cases h1 : t.position ∈ ps
    · by_cases h2 : t.nodes = []
      · rw [if_pos (.inr h2), if_pos h1, h2]; exact PL_nil
      · rw [if_neg (by simp [h1, h2]), if_pos h1]
        have := evalTocNodes_PL (c := c) hi t.nodes
        lay hi
    · rw [if_pos (.inl h1), if_neg h1]; exact PL_nil

theorem evalTerms_PL : ∀ (i : Nat) (ts : List (List Inline)), PL inl c (evalTerms inl i ts) ts
  | _, [] => PL_nil
  | i, t :: ts => PL_append (S := [t]) (by lay hi) (evalTerms_PL (i + 1) ts)

theorem evalCellParagraphs_PL (style : CellStyle) (s : TableSection) (m : Bool) : ∀ ps : List (List Inline), PL inl c (evalCellParagraphs inl style s m ps) ps
  | [] => PL_nil
  | p :: ps => PL_append (S := [p]) (by lay hi) (evalCellParagraphs_PL style s m ps)

theorem evalDocinfo_PL (e : Bool) (f : Option (List Inline)) : PL inl c (evalDocinfo inl e f) (if e then [] else optText f) := by
  cases f <;> cases e
  · exact PL_nil
  · exact PL_nil
  · exact PL_inl hi _
  · exact PL_nil

theorem PB_image {info : BlockInfo} {title : Option (List Inline)} {ti : Option Text} {l : Bool} (h : title = none ∨ ti = none) :
    PB inl c (Eval.view info title) (around (.image (Eval.view info title) ti l) []) [] := by
  intro hf s t hs ha e
  obtain ⟨u, w, e1, e2, e3⟩ := run_around e
  cases e2
  have q := enter_hushed (c := .image (Eval.view info title) ti l) rfl e1
  have key : Opened u t := by
    simp only [exit] at e3; cases e3
    have ha' : (Eval.view info title).hasTitle = false → u.cur.alt = [] := fun x => q.2.2.1.trans (ha x)
    refine Opened.push ?_ rfl
    clear e1 e
    cases ti with
    | none => exact Opened.bufferedTitle _ _ ha'
    | some x =>
      have ht : title = none := by rcases h with h | h; exact h; cases h
      subst ht
      obtain ⟨h1, h2, h3, h4, h5, h6⟩ := takeCaption_keeps u.cur (Eval.view info none)
      refine Opened.quiet ⟨⟨rfl, h3, ?_, h5⟩, rfl, h2, ?_⟩ (ha' rfl)
      · intro x; rw [← h4]; exact x
      · simp [Eval.view, renderBlockTitle, Frame.push, shown_append, shown] at h1 h6 ⊢
        simp [h1, h6]
  have o := Opened.left q key
  refine ⟨hs.keep o.1, o.1.1, o.2.2.1, ?_, ?_⟩
  · rw [o.2.2.2]; simp [A, layout]
  · rw [o.2.1]; simp [A, layout]

theorem PB_visit {b : BlockInfo} (v : Visit) (hv : v = .audio b ∨ v = .video b) : PB inl c b [.visit v] [] := by
  intro hf s t hs ha e
  rw [run_one] at e
  have o : Opened s t := by
    rcases hv with rfl | rfl <;> simp only [step, visitCall] at e <;> cases e <;> opened ha
  refine ⟨hs.keep o.1, o.1.1, o.2.2.1, ?_, ?_⟩
  · rw [o.2.2.2]; simp [A, layout]
  · rw [o.2.1]; simp [A, layout]

/-- the document title, shown or not -/
theorem docTitle_L (title : Option (List Inline)) (hh : ∀ ns, title = some ns → noFoot (inl ns) = true ∨ flat false (inl ns) = true) (s t : State)
    (hh' : titleShown s.cur.attrs = false → ∀ ns, title = some ns → noFoot (inl ns) = true)
    (ha : s.cur.alt = []) (e : run (evalDocTitle inl title) s = some t) :
    Keep s t ∧ t.cur.alt = [] ∧ L s t (A inl (if titleShown s.cur.attrs then optText title else [])) := by
  cases title with
  | none =>
    cases e
    refine ⟨.refl s, ha, (L.refl s).cast ?_⟩
    split <;> rfl
  | some ns =>
    obtain ⟨u, w, e1, e2, e3⟩ := run_around e
    have hflat : flat false (inl ns) = true := by
      rcases hh ns rfl with h | h
      · exact (atoms_noFoot (hi ns) h).1
      · exact h
    have hl := run_lays (hi ns) hflat u w e2
    cases hr : titleShown s.cur.attrs with
    | true =>
      have hr' : s.cur.rendersTitle = true := hr
      simp only [enter, hr', if_true] at e1
      cases e1
      obtain ⟨l, k, a⟩ := hl.L
      have hw : w.cur.rendersTitle = true := by
        have : w.cur.attrs = s.cur.attrs := k.2.1
        unfold Frame.rendersTitle; rw [this]; exact hr
      simp only [exit, hw, if_true] at e3
      cases e3
      have q1 : Q s (s.push [.opening (.h 1)]) := (Q.refl s).push rfl
      have q2 : Q w (w.push [.closing (.h 1)]) := (Q.refl w).push rfl
      exact ⟨(q1.1.trans k).trans q2.1, a.trans ha, (((L.quiet q1).trans l).trans (L.quiet q2)).cast (by simp [A, optText])⟩
    | false =>
      have hr' : ¬ s.cur.rendersTitle = true := by
        have : s.cur.rendersTitle = titleShown s.cur.attrs := rfl
        rw [this, hr]; simp
      simp only [enter, hr', if_false, State.startBuffering, ha, if_true] at e1
      cases e1
      obtain ⟨hf, ht⟩ := atoms_noFoot (hi ns) (hh' hr ns rfl)
      rw [ht] at hl
      obtain ⟨seg, fs, rfl, h1, h2⟩ := hl
      rw [layout_texts] at h1 h2
      have hnil : fs = [] := by
        have := congrArg List.length h2
        simp [notesOf, State.swap] at this; exact this
      subst hnil
      have hw : ¬ (s.swap.ext seg []).cur.rendersTitle = true := hr'
      simp only [exit, hw, if_false] at e3
      cases e3
      refine ⟨⟨rfl, rfl, id, rfl⟩, rfl, ?_⟩
      simp [L, State.swapTake, State.swap, State.ext, A, layout]

/-- what `PL` says of two states -/
def R (inl : List Inline → List Ev) (c : Cfg) (s t : State) (T : List (List Inline)) : Prop :=
  Ok c t ∧ t.outer = s.outer ∧ t.cur.alt = [] ∧ L s t (A inl T)

omit hi in
theorem R.trans {s t u : State} {S T : List (List Inline)} (h : R inl c s t S) (k : R inl c t u T) : R inl c s u (S ++ T) :=
  ⟨k.1, k.2.1.trans h.2.1, k.2.2.1, (h.2.2.2.trans k.2.2.2).cast (A_append S T).symm⟩
omit hi in
theorem R.quiet {s t : State} (hs : Ok c s) (ha : s.cur.alt = []) (q : Q s t) : R inl c s t [] :=
  ⟨hs.keep q.1, q.1.1, q.2.2.1.trans ha, L.quiet q⟩
omit hi in
theorem R.then {s t u : State} {T : List (List Inline)} (h : R inl c s t T) (q : Q t u) : R inl c s u T := by
  have := h.trans (R.quiet h.1 h.2.2.1 q)
  rwa [List.append_nil] at this

theorem docinfo_keeps {e : Bool} {f : Option (List Inline)} {s t : State} (h : run (evalDocinfo inl e f) s = some t) : t.cur.attrs = s.cur.attrs := by
  cases f <;> cases e
  · cases h; rfl
  · cases h; rfl
  · obtain ⟨seg, fs, rfl, -, -⟩ := run_I (hi _) _ _ h; rfl
  · cases h; rfl

/-- a document up to its notes, and what follows -/
theorem visit_split (attrs : Meta) (title : Option (List Inline)) (toc : Option Toc) (head header footer : Option (List Inline)) (content : DocContent)
    (hin : attrs.inlineDoctype = false) (hh' : titleShown attrs = false → ∀ ns, title = some ns → noFoot (inl ns) = true)
    (hc : PL inl c (evalDocContent inl toc title.isSome content) (docContentTexts toc content))
    (hf : ∀ ns ∈ bodyTexts (.mk attrs title toc head header footer content), flat false (inl ns) = true)
    (hf' : ∀ ns ∈ footTexts (.mk attrs title toc head header footer content), flat false (inl ns) = true)
    (s t : State) (hs : Ok c s) (ha : s.cur.alt = []) (e : run (visit inl (.mk attrs title toc head header footer content)) s = some t) :
    ∃ u w, R inl c s u (bodyTexts (.mk attrs title toc head header footer content)) ∧ enter .footer u = some w ∧
      (Ok c w → w.cur.alt = [] → R inl c w t (footTexts (.mk attrs title toc head header footer content))) := by
  have hbody : bodyTexts (.mk attrs title toc head header footer content) =
      (if attrs.embedded then [] else optText head) ++ (if attrs.embedded then [] else optText header) ++ (if titleShown attrs then optText title else []) ++
        tocTextsAt toc [.auto, .left, .right] ++ docContentTexts toc content := by
    simp only [bodyTexts, docTexts]
    cases attrs.embedded <;> cases titleShown attrs <;> simp [optText]
  rw [hbody] at hf ⊢
  have hfoot : footTexts (.mk attrs title toc head header footer content) = if attrs.embedded then [] else optText footer := rfl
  rw [hfoot] at hf' ⊢
  simp only [visit] at e
  obtain ⟨u0, w0, e1, e2, e3⟩ := run_around e
  simp only [exit] at e3; cases e3
  obtain ⟨s1, e4, e5⟩ := run_append_some e2
  obtain ⟨s2, w2, e6, e7, e8⟩ := run_around e5
  simp only [List.append_assoc] at e7
  obtain ⟨s3, e9, e7⟩ := run_append_some e7
  obtain ⟨s4, e10, e7⟩ := run_append_some e7
  obtain ⟨s5, e11, e7⟩ := run_append_some e7
  obtain ⟨s6, e12, e7⟩ := run_append_some e7
  obtain ⟨s7, e13, e14⟩ := run_append_some e7
  obtain ⟨s3', s4', e15, e16, e17⟩ := run_around e10
  obtain ⟨s6', s7', e18, e19, e20⟩ := run_around e13
  cases e19
  -- the attributes are set
  have hu0 : Ok c u0 ∧ u0.cur.alt = [] ∧ u0.outer = s.outer ∧ L s u0 [] ∧ u0.cur.attrs = attrs := by
    simp only [enter] at e1; cases e1
    have key : Ok c { s with cur := { s.cur with attrs := attrs } } := ⟨hin, hs.2.1, hs.2.2⟩
    have q : Q { s with cur := { s.cur with attrs := attrs } } (State.pushIf { s with cur := { s.cur with attrs := attrs } } (Frame.standalone { s.cur with attrs := attrs })
      [.opening .html, .opening .head, .void .metaTag, .opening .title, .closing .title, .opening .style, .closing .style]) := (Q.refl _).pushIf rfl
    refine ⟨key.keep q.1, q.2.2.1.trans ha, q.1.1, ?_, q.1.2.1⟩
    have := L.quiet q
    exact this
  have r1 : R inl c u0 s1 (if attrs.embedded then [] else optText head) :=
    evalDocinfo_PL hi attrs.embedded head (fun ns h => hf ns (by simp [h])) u0 s1 hu0.1 hu0.2.1 e4
  have q2 := enter_hushed (c := .body) rfl e6
  have r2 := r1.then q2
  have r3 : R inl c s2 s3 (if attrs.embedded then [] else optText header) :=
    evalDocinfo_PL hi attrs.embedded header (fun ns h => hf ns (by simp [h])) s2 s3 r2.1 r2.2.2.1 e9
  have q3 := enter_hushed (c := .header) rfl e15
  have r4 := r3.then q3
  have hattr : s3'.cur.attrs = attrs := by
    rw [q3.1.2.1, docinfo_keeps hi e9, q2.1.2.1, docinfo_keeps hi e4, hu0.2.2.2.2]
  have hflatT : ∀ ns, title = some ns → noFoot (inl ns) = true ∨ flat false (inl ns) = true := by
    intro ns h
    cases ht : titleShown attrs with
    | false => exact .inl (hh' ht ns h)
    | true => exact .inr (hf ns (by simp [ht, h, optText]))
  obtain ⟨k5, a5, l5⟩ := docTitle_L hi title hflatT s3' s4' (by rw [hattr]; exact hh') r4.2.2.1 e16
  rw [hattr] at l5
  have r5 : R inl c s3' s4' (if titleShown attrs then optText title else []) := ⟨r4.1.keep k5, k5.1, a5, l5⟩
  have q4 := exit_hushed (c := .header) rfl (by intro _ _ _ h; cases h) e17
  have r6 := r5.then q4
  have r7 : R inl c s4 s5 (tocTextsAt toc [.auto, .left, .right]) :=
    evalTocAt_PL hi toc [.auto, .left, .right] (fun ns h => hf ns (by simp [h])) s4 s5 r6.1 r6.2.2.1 e11
  have r8 : R inl c s5 s6 (docContentTexts toc content) :=
    PL_around .content rfl (by intro _ _ _ h; cases h) hc (fun ns h => hf ns (by simp [h])) s5 s6 r7.1 r7.2.2.1 e12
  refine ⟨s6, s6', ?_, e18, ?_⟩
  · have := (((r2.trans r4).trans r6).trans r7).trans r8
    refine ⟨this.1, this.2.1.trans hu0.2.2.1, this.2.2.1, (hu0.2.2.2.1.trans this.2.2.2).cast (by simp)⟩
  · intro ho halt
    have q5 := exit_hushed (c := .footer) rfl (by intro _ _ _ h; cases h) e20
    have r9 := R.quiet (inl := inl) ho halt q5
    have r10 : R inl c s7 w2 (if attrs.embedded then [] else optText footer) :=
      evalDocinfo_PL hi attrs.embedded footer hf' s7 w2 r9.1 r9.2.2.1 e14
    have q6 := exit_hushed (c := .body) rfl (by intro _ _ _ h; cases h) e8
    exact (r9.trans r10).then q6

/-- the conditions on blocks -/
abbrev ok (c : Cfg) (b : Block) : Prop :=
  wf b ∧ placesTitles b ∧ (c.desc = true → plainParagraph b) ∧ (c.cell = true → Spec.Captions.simpleTable b)

omit hi in
theorem footnoteItems_shown : ∀ (fs : List (Option Text × List Tok)) (i : Nat), shown (footnoteItems fs i) = noteList i (notesOf fs)
  | [], _ => rfl
  | (id, b) :: fs, i => by
    have := footnoteItems_shown fs (i + 1)
    simp [footnoteItems, shown_append, shown, this, notesOf, noteList]

omit hi in
theorem footer_cell {s t : State} (h : s.cur.inCell = true) (e : enter .footer s = some t) : Q s t := by
  simp only [enter, h, Bool.not_true, Bool.and_false] at e; cases e
  exact (Q.refl s).pushIf rfl

omit hi in
theorem footer_top {s t : State} (h : s.cur.inCell = false) (e : enter .footer s = some t) :
    Keep s t ∧ t.footnotes = s.footnotes ∧ t.cur.alt = s.cur.alt ∧ shown t.cur.html = shown s.cur.html ++ noteList 1 (notesOf s.footnotes) := by
  simp only [enter, h, Bool.not_false, Bool.and_true] at e
  have key : Keep s (s.pushIf (!s.footnotes.isEmpty) (renderFootnotes s.footnotes)) ∧ (s.pushIf (!s.footnotes.isEmpty) (renderFootnotes s.footnotes)).footnotes = s.footnotes ∧
      (s.pushIf (!s.footnotes.isEmpty) (renderFootnotes s.footnotes)).cur.alt = s.cur.alt ∧
      shown (s.pushIf (!s.footnotes.isEmpty) (renderFootnotes s.footnotes)).cur.html = shown s.cur.html ++ noteList 1 (notesOf s.footnotes) := by
    unfold State.pushIf
    split
    case isTrue => exact ⟨⟨rfl, rfl, id, rfl⟩, rfl, rfl, by simp [State.push, Frame.push, renderFootnotes, shown_append, shown, footnoteItems_shown]⟩
    case isFalse h' =>
      have : s.footnotes = [] := by simpa using h'
      exact ⟨.refl s, rfl, rfl, by simp [this, notesOf, noteList]⟩
  cases e
  have q : ∀ u : State, Q u (u.pushIf (!u.cur.attrs.embedded && !u.cur.attrs.nofooter) [.opening .div]) := fun u => (Q.refl u).pushIf rfl
  have := q (s.pushIf (!s.footnotes.isEmpty) (renderFootnotes s.footnotes))
  exact ⟨key.1.trans this.1, this.2.1.trans key.2.1, this.2.2.1.trans key.2.2.1, this.2.2.2.trans key.2.2.2⟩

/-- a document in a cell -/
theorem PL_cellDocument {evs : List Ev} {T : List (List Inline)} (hcell : c.cell = false) (h : PL inl { cell := true } evs T) : PL inl c (around .cellDocument evs) T := by
  intro hf s t hs ha e
  obtain ⟨u, w, e1, e2, e3⟩ := run_around e
  simp only [enter] at e1; cases e1
  obtain ⟨a1, a2, a3, a4⟩ := h hf { s with cur := { inCell := true }, outer := s.cur :: s.outer } w ⟨rfl, (fun x => Bool.noConfusion x), rfl⟩ rfl e2
  have a2 : w.outer = s.cur :: s.outer := a2
  simp only [exit, a2] at e3; cases e3
  refine ⟨⟨hs.1, hs.2.1, hcell.symm⟩, rfl, ha, ?_, a4.2⟩
  have := a4.1
  simp only [shown_append, this]
  simp [shown]

/-- a description that starts on the line of its term -/
theorem PL_descriptionText {e : Bool} {evs : List Ev} {T : List (List Inline)} (h : PL inl { c with desc := true } evs T) : PL inl c (around (.descriptionText e) evs) T := by
  intro hf s t hs ha e
  obtain ⟨u, w, e1, e2, e3⟩ := run_around e
  simp only [enter] at e1; cases e1
  obtain ⟨a1, a2, a3, a4⟩ := h hf { s with cur := { s.cur with simpleTerm := true } } w ⟨hs.1, fun _ => rfl, hs.2.2⟩ ha e2
  simp only [exit] at e3; cases e3
  exact ⟨⟨a1.1, (fun x => Bool.noConfusion x), a1.2.2⟩, a2, a3, a4⟩

theorem PL_declaration (m : Meta) : PL inl c [.visit (.declaration m)] [] := by
  intro hf s t hs ha e
  rw [run_one] at e
  simp only [step, visitCall] at e; cases e
  exact ⟨⟨hs.1, hs.2.1, hs.2.2⟩, rfl, ha, L.refl s⟩

omit hi in
theorem noTitle {info : BlockInfo} {title a ci : Option (List Inline)} {x : Content} (h : placesTitles (.mk info title a ci x)) (hc : Spec.Notes.showsTitle info.context = false) :
    (Eval.view info title).hasTitle = false := by
  cases title with
  | none => rfl
  | some ns => have := h.1 rfl; rw [hc] at this; cases this

end

section
variable {inl : List Inline → List Ev} (hi : ∀ ns, I (inl ns))
include hi

/-- a description on the line of its term has no paragraphs with titles -/
def itemOk (i : Item) : Prop := ∀ p ts d bs, i = .desc p ts (some d) bs → AllBlock plainParagraph d

mutual
theorem evalBlock_PL (c : Cfg) (toc : Option Toc) : ∀ b : Block, AllBlock (ok c) b → PL inl c (evalBlock inl toc b) (blockTexts toc b)
  | .mk info title a ci content, h => by
    have h2 := evalContent_PB c toc info title a ci content h.1 h.2
    refine PL_cast (PL_titled hi ?_ h2) (by simp only [blockTexts, quoteTexts, List.append_assoc])
    intro ht hp
    have := h.1.2.1.1 ht
    rw [hp] at this; cases this
theorem evalContent_PB (c : Cfg) (toc : Option Toc) (info : BlockInfo) (title a ci : Option (List Inline)) : ∀ x : Content,
    ok c (.mk info title a ci x) → AllContent (ok c) x →
    PB inl c (Eval.view info title) (evalContent inl toc (Eval.view info title) a ci x) (contentTexts toc info.context x ++ quoteTexts info.context a ci)
  | .simple ns, ho, _ => by
    have h1 : ∀ {b}, PL inl c (simple inl b ns) [ns] := fun {b} => simple_PL hi b ns
    have h2 := evalQuoteAttr_PL (c := c) hi (Eval.view info title) a ci
    have h3 := fun {b} => PL_append (h1 (b := b)) h2
    rcases fits_simple ho.1 with h | h | h | h | h | h | h | h | h <;>
      simp only [evalContent, contentTexts, quoteTexts, Eval.view, h] <;> simp only [Eval.view, h] at h2 h3
    · refine PB_block rfl (by intro _ _ _ h; cases h) (open_paragraph fun hd => ?_) h1
      have := ho.2.2.1 hd h; rw [this]; rfl
    · exact PB_block rfl (by intro _ _ _ h; cases h) open_sidebar h1
    · exact PB_block rfl (by intro _ _ _ h; cases h) open_listing h1
    · exact PB_block rfl (by intro _ _ _ h; cases h) open_verse h3
    · exact PB_block rfl (by intro _ _ _ h; cases h) open_quote h3
    · exact PB_block rfl (by intro _ _ _ h; cases h) open_example h1
    · exact PB_block rfl (by intro _ _ _ h; cases h) open_admonition (PL_inl hi ns)
    · exact PB_block rfl (by intro _ _ _ h; cases h) open_literal h1
    · have := noTitle ho.2.1 (by rw [h]; rfl)
      simp only [Eval.view] at this
      exact PB_of_PL (PL_around _ rfl (by intro _ _ _ h; cases h) h1) this
  | .compound bs, ho, ha => by
    have h0 := evalBlocks_PL c toc bs ha
    have h1 : PL inl c (around .compoundContent (evalBlocks inl toc bs)) (blocksTexts toc bs) := PL_around _ rfl (by intro _ _ _ h; cases h) h0
    have h2 := evalQuoteAttr_PL (c := c) hi (Eval.view info title) a ci
    have h3 := PL_append h1 h2
    have h1' := PL_cast h1 (List.append_nil _).symm
    rcases fits_compound ho.1 with h | h | h | h | h <;> simp only [evalContent, contentTexts, quoteTexts, Eval.view, h] <;> simp only [Eval.view, h] at h2 h3
    · exact PB_block rfl (by intro _ _ _ h; cases h) open_sidebar h1'
    · exact PB_block rfl (by intro _ _ _ h; cases h) open_quote h3
    · exact PB_block rfl (by intro _ _ _ h; cases h) open_openBlock h1'
    · exact PB_block rfl (by intro _ _ _ h; cases h) open_example h1'
    · exact PB_block rfl (by intro _ _ _ h; cases h) open_admonition h1'
  | .quoted q at' co, ho, _ => by
    have h := fits_quoted ho.1
    have h2 := evalQuoteAttr_PL (c := c) hi (Eval.view info title) (some at') co
    simp only [evalContent, contentTexts, quoteTexts, Eval.view, h]
    simp only [Eval.view, h] at h2
    exact PB_block rfl (by intro _ _ _ h; cases h) open_quotedParagraph (PL_cast (PL_append (PL_inl hi q) h2) (by simp [optText]))
  | .list v items, ho, ha => by
    rcases fits_list ho.1 with ⟨h, hp⟩ | ⟨h, hp⟩
    · simp only [evalContent, contentTexts, quoteTexts, Eval.view, h]
      refine PB_block rfl (by intro _ _ _ h; cases h) open_descriptionList (PL_cast (evalDescItems_PL c toc items hp ?_ ha) (by simp))
      exact fun i hi => ho.2.1.2.2.1 v items rfl i hi
    · have h1 := PL_cast (evalItems_PL c toc v items hp ha) (List.append_nil _).symm
      rcases h with h | h | h <;> simp only [evalContent, contentTexts, quoteTexts, Eval.view, h]
      · exact PB_block rfl (by intro _ _ _ h; cases h) open_orderedList h1
      · exact PB_block rfl (by intro _ _ _ h; cases h) open_unorderedList h1
      · have := noTitle ho.2.1 (by rw [h]; rfl)
        simp only [Eval.view] at this
        exact PB_of_PL (PL_around _ rfl (by intro _ _ _ h; cases h) h1) this
  | .section s, ho, ha => by
    have h := fits_section ho.1
    have := noTitle ho.2.1 (by rw [h]; rfl)
    simp only [evalContent, contentTexts, quoteTexts, Eval.view, h] at this ⊢
    exact PB_of_PL (PL_cast (evalSect_PL c toc s ha) (by simp)) this
  | .table header rows footer, ho, ha => by
    have h := fits_table ho.1
    have hk := ho.2.1.2.2.2 header rows footer rfl
    have hs := ho.2.2.2
    simp only [evalContent, contentTexts, quoteTexts, Eval.view, h]
    refine PB_block rfl (by intro _ _ _ h; cases h) open_table (PL_cast (PL_append (PL_append
      (evalEdge_PL c .header header (fun x hx => ⟨hk.1 x hx, fun hc => ?_⟩) ha.1)
      (evalBody_PL c rows (fun r hr x hx => ⟨hk.2.1 r hr x hx, fun hc => ?_⟩) ha.2.1))
      (evalEdge_PL c .footer footer (fun x hx => ⟨hk.2.2 x hx, fun hc => ?_⟩) ha.2.2)) (by simp))
    · exact List.all_eq_true.1 (hs hc).2.1 x hx
    · exact List.all_eq_true.1 ((hs hc).1 r hr) x hx
    · exact List.all_eq_true.1 (hs hc).2.2 x hx
  | .image t l, ho, _ => by
    have h := fits_image ho.1
    have := PB_image (c := c) (info := info) (title := title) (ti := t) (l := l) hi (ho.2.1.2.1 t l rfl)
    have hv : (Eval.view info title).context = .image := h
    simp only [evalContent, contentTexts, quoteTexts, hv, h]
    exact this
  | .audioVideo, ho, _ => by
    rcases fits_audioVideo ho.1 with h | h <;> simp only [evalContent, contentTexts, quoteTexts, Eval.view, h]
    · exact PB_visit hi _ (.inl rfl)
    · exact PB_visit hi _ (.inr rfl)
  | .heading l ns, ho, _ => by
    have h := fits_heading ho.1
    have := noTitle ho.2.1 (by rw [h]; rfl)
    simp only [evalContent, contentTexts, quoteTexts, Eval.view, h] at this ⊢
    exact PB_of_PL (PL_around _ rfl (by intro _ _ _ h; cases h) (PL_inl hi ns)) this
  | .declaration m, ho, _ => by
    have h := fits_declaration ho.1
    have := noTitle ho.2.1 (by rw [h]; rfl)
    simp only [evalContent, contentTexts, quoteTexts, Eval.view, h] at this ⊢
    exact PB_of_PL (PL_declaration hi m) this
  | .empty, ho, _ => by
    rcases fits_empty ho.1 with h | h | h | h <;> have := noTitle ho.2.1 (by rw [h]; rfl) <;>
      simp only [evalContent, contentTexts, quoteTexts, Eval.view, h, evalOther] at this ⊢ <;> refine PB_of_PL ?_ this
    · exact PL_quiet fun s t e => by rw [run_one] at e; simp only [step, visitCall] at e; cases e; hush
    · exact PL_quiet fun s t e => by rw [run_one] at e; simp only [step, visitCall] at e; cases e; hush
    · exact PL_cast (evalTocAt_PL hi toc [.byMacro]) (by simp)
    · exact PL_nil
theorem evalBlocks_PL (c : Cfg) (toc : Option Toc) : ∀ bs : List Block, AllBlocks (ok c) bs → PL inl c (evalBlocks inl toc bs) (blocksTexts toc bs)
  | [], _ => PL_nil
  | b :: bs, h => PL_append (evalBlock_PL c toc b h.1) (evalBlocks_PL c toc bs h.2)
theorem evalItem_PL (c : Cfg) (toc : Option Toc) (v : Variant) : ∀ i : Item, isPlain i = true → AllItem (ok c) i → PL inl c (evalItem inl toc v i) (itemTexts toc i)
  | .plain p bs, _, h => PL_append (S := [p]) (by lay hi) (PL_around _ rfl (by intro _ _ _ h; cases h) (evalBlocks_PL c toc bs h))
  | .desc p _ _ bs, h, _ => by cases h
theorem evalItems_PL (c : Cfg) (toc : Option Toc) (v : Variant) : ∀ is : List Item, is.all isPlain = true → AllItems (ok c) is → PL inl c (evalItems inl toc v is) (itemsTexts toc is)
  | [], _, _ => PL_nil
  | i :: is, hp, h => by
    rw [List.all_cons, Bool.and_eq_true] at hp
    exact PL_append (evalItem_PL c toc v i hp.1 h.1) (evalItems_PL c toc v is hp.2 h.2)
theorem evalDescItem_PL (c : Cfg) (toc : Option Toc) : ∀ i : Item, (!isPlain i) = true → itemOk i → AllItem (ok c) i → PL inl c (evalDescItem inl toc i) (itemTexts toc i)
  | .plain _ _, h, _, _ => by cases h
  | .desc p ex none [], _, _, h => PL_cast (PL_append (evalTerms_PL hi 1 (p :: ex)) PL_nil) (by simp [itemTexts, blocksTexts])
  | .desc p ex none (b :: bs), _, _, h => PL_cast (PL_append (evalTerms_PL hi 1 (p :: ex)) (PL_around _ rfl (by intro _ _ _ h; cases h)
      (PL_append (PL_around _ rfl (by intro _ _ _ h; cases h) (evalBlock_PL c toc b h.2.1)) (evalDescBlocks_PL c toc bs h.2.2)))) (by simp [itemTexts, blocksTexts])
  | .desc p ex (some d) bs, _, hk, h => PL_cast (PL_append (evalTerms_PL hi 1 (p :: ex)) (PL_around .description rfl (by intro _ _ _ h; cases h)
      (PL_append (PL_descriptionText hi (evalBlock_PL { c with desc := true } toc d
        (AllBlock.imp (fun b h => ⟨h.1.1, h.1.2.1, fun _ => h.2, h.1.2.2.2⟩) d (AllBlock.and d h.1 (hk p ex d bs rfl))))) (evalDescBlocks_PL c toc bs h.2)))) (by simp [itemTexts])
theorem evalDescItems_PL (c : Cfg) (toc : Option Toc) : ∀ is : List Item, is.all (fun i => !isPlain i) = true → (∀ i ∈ is, itemOk i) → AllItems (ok c) is →
    PL inl c (evalDescItems inl toc is) (itemsTexts toc is)
  | [], _, _, _ => PL_nil
  | i :: is, hp, hk, h => by
    rw [List.all_cons, Bool.and_eq_true] at hp
    exact PL_append (evalDescItem_PL c toc i hp.1 (hk i (by simp)) h.1) (evalDescItems_PL c toc is hp.2 (fun j hj => hk j (by simp [hj])) h.2)
theorem evalDescBlocks_PL (c : Cfg) (toc : Option Toc) : ∀ bs : List Block, AllBlocks (ok c) bs → PL inl c (evalDescBlocks inl toc bs) (blocksTexts toc bs)
  | [], _ => PL_nil
  | b :: bs, h => PL_append (PL_around _ rfl (by intro _ _ _ h; cases h) (evalBlock_PL c toc b h.1)) (evalDescBlocks_PL c toc bs h.2)
theorem evalSect_PL (c : Cfg) (toc : Option Toc) : ∀ s : Sect, AllSect (ok c) s → PL inl c (evalSect inl toc s) (sectTexts toc s)
  | .mk info h bs, ha => PL_around _ rfl (by intro _ _ _ h; cases h) (PL_append (S := [h]) (by lay hi) (evalBlocks_PL c toc bs ha))
theorem evalSects_PL (c : Cfg) (toc : Option Toc) : ∀ ss : List Sect, AllSects (ok c) ss → PL inl c (evalSects inl toc ss) (sectsTexts toc ss)
  | [], _ => PL_nil
  | s :: ss, h => PL_append (evalSect_PL c toc s h.1) (evalSects_PL c toc ss h.2)
theorem evalCell_PL (c : Cfg) (s : TableSection) : ∀ x : Cell, (cellOk x ∧ (c.cell = true → Spec.Captions.simpleCell x = true)) → AllCell (ok c) x → PL inl c (evalCell inl s x) (cellTexts x)
  | .paragraphs style ps, _, _ => PL_around _ rfl (by intro _ _ _ h; cases h) (evalCellParagraphs_PL hi style s _ ps)
  | .literal ns, _, _ => PL_around _ rfl (by intro _ _ _ h; cases h) (PL_inl hi ns)
  | .asciidoc d, hk, h => by
    have hcell : c.cell = false := by
      cases hc : c.cell with
      | false => rfl
      | true => exact Bool.noConfusion (hk.2 hc)
    exact PL_around _ rfl (by intro _ _ _ h; cases h) (PL_cellDocument hi hcell (visit_PL { cell := true } d rfl hk.1.1
      (AllDoc.imp (fun b h => ⟨h.1.1, h.1.2.1, (fun x => Bool.noConfusion x), fun _ => h.2⟩) d (AllDoc.and d h hk.1.2))))
theorem evalCells_PL (c : Cfg) (s : TableSection) : ∀ cs : List Cell, (∀ x ∈ cs, cellOk x ∧ (c.cell = true → Spec.Captions.simpleCell x = true)) → AllCells (ok c) cs →
    PL inl c (evalCells inl s cs) (cellsTexts cs)
  | [], _, _ => PL_nil
  | x :: cs, hk, h => PL_append (evalCell_PL c s x (hk x (by simp)) h.1) (evalCells_PL c s cs (fun y hy => hk y (by simp [hy])) h.2)
theorem evalEdge_PL (c : Cfg) (s : TableSection) : ∀ cs : Option (List Cell), (∀ x ∈ cs.getD [], cellOk x ∧ (c.cell = true → Spec.Captions.simpleCell x = true)) → AllEdge (ok c) cs →
    PL inl c (evalEdge inl s cs) (edgeTexts cs)
  | none, _, _ => PL_nil
  | some cs, hk, h => PL_around _ rfl (by intro _ _ _ h; cases h) (PL_around _ rfl (by intro _ _ _ h; cases h) (evalCells_PL c s cs hk h))
theorem evalBody_PL (c : Cfg) : ∀ rs : List (List Cell), (∀ r ∈ rs, ∀ x ∈ r, cellOk x ∧ (c.cell = true → Spec.Captions.simpleCell x = true)) → AllRows (ok c) rs →
    PL inl c (evalBody inl rs) (rowsTexts rs)
  | [], _, _ => PL_nil
  | r :: rs, hk, h => PL_around _ rfl (by intro _ _ _ h; cases h) (PL_append (PL_around _ rfl (by intro _ _ _ h; cases h) (evalCells_PL c .body r (hk r (by simp)) h.1))
      (evalRows_PL c rs (fun q hq => hk q (by simp [hq])) h.2))
theorem evalRows_PL (c : Cfg) : ∀ rs : List (List Cell), (∀ r ∈ rs, ∀ x ∈ r, cellOk x ∧ (c.cell = true → Spec.Captions.simpleCell x = true)) → AllRows (ok c) rs →
    PL inl c (evalRows inl rs) (rowsTexts rs)
  | [], _, _ => PL_nil
  | r :: rs, hk, h => PL_append (PL_around _ rfl (by intro _ _ _ h; cases h) (evalCells_PL c .body r (hk r (by simp)) h.1))
      (evalRows_PL c rs (fun q hq => hk q (by simp [hq])) h.2)
theorem evalPart_PL (c : Cfg) (toc : Option Toc) : ∀ p : Part, AllPart (ok c) p → PL inl c (evalPart inl toc p) (partTexts toc p)
  | .mk t bt none ss, h => PL_cast (PL_around _ rfl (by intro _ _ _ h; cases h) (PL_append (PL_append (S := [t]) (by lay hi) PL_nil) (evalSects_PL c toc ss h.2))) (by simp [partTexts])
  | .mk t none (some bs) ss, h => PL_cast (PL_around _ rfl (by intro _ _ _ h; cases h) (PL_append (PL_append (S := [t]) (by lay hi) (PL_around _ rfl (by intro _ _ _ h; cases h) (PL_append PL_nil
      (PL_around _ rfl (by intro _ _ _ h; cases h) (evalBlocks_PL c toc bs h.1))))) (evalSects_PL c toc ss h.2))) (by simp [partTexts, optText])
  | .mk t (some ns) (some bs) ss, h => PL_cast (PL_around _ rfl (by intro _ _ _ h; cases h) (PL_append (PL_append (S := [t]) (by lay hi) (PL_around _ rfl (by intro _ _ _ h; cases h) (PL_append (PL_inl hi ns)
      (PL_around _ rfl (by intro _ _ _ h; cases h) (evalBlocks_PL c toc bs h.1))))) (evalSects_PL c toc ss h.2))) (by simp [partTexts, optText])
theorem evalParts_PL (c : Cfg) (toc : Option Toc) : ∀ ps : List Part, AllParts (ok c) ps → PL inl c (evalParts inl toc ps) (partsTexts toc ps)
  | [], _ => PL_nil
  | p :: ps, h => PL_append (evalPart_PL c toc p h.1) (evalParts_PL c toc ps h.2)
theorem evalDocContent_PL (c : Cfg) (toc : Option Toc) (t : Bool) : ∀ x : DocContent, AllDocContent (ok c) x → PL inl c (evalDocContent inl toc t x) (docContentTexts toc x)
  | .blocks bs, h => evalBlocks_PL c toc bs h
  | .sections none ss, h => evalSects_PL c toc ss h.2
  | .sections (some bs) ss, h => PL_append (PL_around _ rfl (by intro _ _ _ h; cases h) (PL_append (evalBlocks_PL c toc bs h.1) (evalTocAt_PL hi toc [.preamble]))) (evalSects_PL c toc ss h.2)
  | .parts none o ps x, h => PL_append (PL_append (evalSects_PL c toc o h.2.1) (evalParts_PL c toc ps h.2.2.1)) (evalSects_PL c toc x h.2.2.2)
  | .parts (some bs) o ps x, h => PL_append (PL_append (PL_around _ rfl (by intro _ _ _ h; cases h) (PL_append (PL_append (evalBlocks_PL c toc bs h.1) (evalSects_PL c toc o h.2.1))
      (evalTocAt_PL hi toc [.preamble]))) (evalParts_PL c toc ps h.2.2.1)) (evalSects_PL c toc x h.2.2.2)
theorem visit_PL (c : Cfg) : ∀ d : Doc, c.cell = true → plainDoc d → AllDoc (ok c) d → PL inl c (visit inl d) (docTexts d)
  | .mk attrs title toc head header footer content, hc, hp, h => by
    have h2 := evalDocContent_PL c toc title.isSome content h
    have hsplit : docTexts (.mk attrs title toc head header footer content) =
        bodyTexts (.mk attrs title toc head header footer content) ++ footTexts (.mk attrs title toc head header footer content) := by
      simp only [bodyTexts, docTexts, footTexts]
      rcases hp.2 with rfl | ht
      · cases attrs.embedded <;> simp [optText]
      · rw [if_pos ht]; cases attrs.embedded <;> simp [optText]
    intro hf s t hs ha e
    rw [hsplit] at hf
    obtain ⟨u, w, h3, h4, h5⟩ := visit_split hi attrs title toc head header footer content hp.1
      (fun hn ns hns => by rcases hp.2 with hp | hp <;> simp_all) h2 (fun ns h => hf ns (by simp [h])) (fun ns h => hf ns (by simp [h])) s t hs ha e
    have q := footer_cell (h3.1.2.2.trans hc) h4
    have h6 := h3.then q
    have := h6.trans (h5 h6.1 h6.2.2.1)
    rw [hsplit]
    exact this
end

/-- A whole document: its texts, its notes, and what follows. -/
theorem visit_top (d : Doc) (hin : ∀ attrs title toc head header footer content, d = .mk attrs title toc head header footer content →
      attrs.inlineDoctype = false ∧ (titleShown attrs = false → ∀ ns, title = some ns → noFoot (inl ns) = true))
    (ho : AllDoc (ok {}) d) (hf : ∀ ns ∈ bodyTexts d ++ footTexts d, flat false (inl ns) = true) (t : State) (e : run (visit inl d) {} = some t) :
    shown t.cur.html = (layout [] (A inl (bodyTexts d))).1 ++ noteList 1 (layout [] (A inl (bodyTexts d))).2 ++
      (layout (layout [] (A inl (bodyTexts d))).2 (A inl (footTexts d))).1 := by
  obtain ⟨attrs, title, toc, head, header, footer, content⟩ := d
  obtain ⟨h1, h2⟩ := hin _ _ _ _ _ _ _ rfl
  obtain ⟨u, w, h3, h4, h5⟩ := visit_split (c := {}) hi attrs title toc head header footer content h1 h2
    (evalDocContent_PL hi {} toc title.isSome content ho) (fun ns h => hf ns (by simp [h])) (fun ns h => hf ns (by simp [h])) {} t
    ⟨rfl, (fun x => Bool.noConfusion x), rfl⟩ rfl e
  obtain ⟨k1, k2, k3, k4⟩ := footer_top h3.1.2.2 h4
  have h6 := h5 (h3.1.keep k1) (k3.trans h3.2.2.1)
  have h7 := h3.2.2.2
  rw [h6.2.2.2.1, k4, k2, h7.1, h7.2]
  rfl

end
end Verif.Html.Notes

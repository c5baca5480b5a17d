import Verif.Spec.Renders
import Verif.Lemmas.NotesDoc
/-! Rendering does not panic. -/
set_option linter.unusedSectionVars false
set_option linter.unusedVariables false
set_option linter.unusedSimpArgs false
namespace Verif.Html.Renders
open Verif.Ast Verif.Eval Verif.Html Verif.Spec.Eval Verif.Spec.Html Verif.Spec.Notes Verif.Spec.Renders Verif.Html.Notes

theorem calm_cons {e : Ev} (h : ∀ id, e ≠ .enter (.footnote id) ∧ e ≠ .exit (.footnote id)) (hl : ∀ x, e ≠ .visit (.leaf (.image x true))) (b : Bool) (evs : List Ev) :
    calm b (e :: evs) = calm b evs := by
  cases e with
  | enter c => cases c <;> first | rfl | exact absurd rfl (h _).1
  | exit c => cases c <;> first | rfl | exact absurd rfl (h _).2
  | visit v =>
    cases v with
    | leaf l =>
      cases l with
      | image x y => cases y; rfl; exact absurd rfl (hl x)
      | _ => rfl
    | _ => rfl
  | _ => rfl

theorem calm_weaken : ∀ evs : List Ev, calm true evs = true → calm false evs = true
  | [], _ => rfl
  | e :: evs, h => by
    by_cases h1 : ∃ id, e = .enter (.footnote id)
    · obtain ⟨id, rfl⟩ := h1; simp [calm] at h
    by_cases h2 : ∃ id, e = .exit (.footnote id)
    · obtain ⟨id, rfl⟩ := h2; simpa [calm] using h
    by_cases h3 : ∃ x, e = .visit (.leaf (.image x true))
    · obtain ⟨x, rfl⟩ := h3; simp [calm] at h
    have k1 : ∀ id, e ≠ .enter (.footnote id) ∧ e ≠ .exit (.footnote id) := fun id => ⟨fun x => h1 ⟨id, x⟩, fun x => h2 ⟨id, x⟩⟩
    rw [calm_cons k1 (fun x y => h3 ⟨x, y⟩)] at h ⊢
    exact calm_weaken evs h

theorem calm_I {a : List Ev} (h : I a) : ∀ b r, calm b (a ++ r) = (calm b a && calm b r) := by
  induction h with
  | nil => intro b r; simp [calm]
  | leaf l =>
    intro b r
    cases l with
    | image x y => cases y <;> simp [calm]
    | _ => simp [calm]
  | missing t => intro b r; simp [calm]
  | bound => intro b r; simp [calm]
  | vterm => intro b r; simp [calm]
  | append _ _ ih1 ih2 => intro b r; rw [List.append_assoc, ih1, ih2, ih1, Bool.and_assoc]
  | @around c hc a _ ih =>
    intro b r
    by_cases hf : ∀ id, c ≠ .footnote id
    · obtain ⟨h1, h2⟩ := notFoot hf
      simp only [around, List.cons_append, List.append_assoc, calm_cons h1 (fun x y => by cases y), ih, List.nil_append, calm_cons h2 (fun x y => by cases y)]
      simp [calm]
    · obtain ⟨id, rfl⟩ : ∃ id, c = .footnote id := by
        apply Classical.byContradiction; intro hn; exact hf fun id e => hn ⟨id, e⟩
      simp only [around, List.cons_append, List.append_assoc, calm, ih, List.nil_append]
      cases b <;> simp

/-- inline nodes run to the end -/
theorem runs_I {a : List Ev} (h : I a) : ∀ (b : Bool) (s : State), calm b a = true → (∀ e ∈ a, good e = true) → (b = false → s.cur.alt = []) → ∃ t, run a s = some t := by
  induction h with
  | nil => intro b s _ _ _; exact ⟨s, rfl⟩
  | leaf l =>
    intro b s hc hg ha
    replace hg := hg _ (List.mem_singleton.2 rfl)
    rw [run_one]
    cases l
    case image x y =>
      cases y
      · exact ⟨_, rfl⟩
      · cases b
        · simp only [step, visitCall, ha rfl, if_true]; exact ⟨_, rfl⟩
        · simp [calm] at hc
    case menu n =>
      have : 2 ≤ n := by simpa [good] using hg
      simp only [step, visitCall, this, if_true]; exact ⟨_, rfl⟩
    all_goals exact ⟨_, rfl⟩
  | missing t => intro b s _ _ _; exact ⟨_, rfl⟩
  | bound => intro b s _ hg _; exact Bool.noConfusion (hg _ (List.mem_singleton.2 rfl))
  | vterm => intro b s _ _ _; exact ⟨_, rfl⟩
  | @append x y hx hy ih1 ih2 =>
    intro b s hc hg ha
    rw [calm_I hx, Bool.and_eq_true] at hc
    obtain ⟨t, ht⟩ := ih1 b s hc.1 (fun e h => hg e (by simp [h])) ha
    obtain ⟨seg, fs, rfl, -, -⟩ := run_I hx s t ht
    obtain ⟨u, hu⟩ := ih2 b (s.ext seg fs) hc.2 (fun e h => hg e (by simp [h])) (fun hb => ha hb)
    exact ⟨u, by rw [run_append, ht]; exact hu⟩
  | @around c hi a hx ih =>
    intro b s hc hg ha
    have hg' : ∀ e ∈ a, good e = true := fun e h => hg e (by simp [around, h])
    -- enough: the call is entered, the content runs, the call is left
    have done : ∀ (b' : Bool) (u : State), enter c s = some u → calm b' a = true → (b' = false → u.cur.alt = []) →
        (∀ seg fs, ∃ t, exit c (u.ext seg fs) = some t) → ∃ t, run (around c a) s = some t := by
      intro b' u h1 h2 h3 h4
      obtain ⟨v, hv⟩ := ih b' u h2 hg' h3
      obtain ⟨seg, fs, rfl, -, -⟩ := run_I hx u v hv
      obtain ⟨t, ht⟩ := h4 seg fs
      refine ⟨t, ?_⟩
      simp only [around, List.cons_append, run, step, h1, Option.bind_some]
      rw [run_append, hv]
      simp [run, step, ht]
    by_cases hf : ∀ id, c ≠ .footnote id
    · obtain ⟨h1, h2⟩ := notFoot hf
      have hc' : calm b a = true := by
        simp only [around, calm_cons h1 (fun x y => by cases y), calm_I hx, Bool.and_eq_true] at hc
        exact hc.1
      cases c <;> try (exact Bool.noConfusion hi)
      case footnote id => exact absurd rfl (hf id)
      case wrap k =>
        refine done b _ rfl hc' ?_ (fun seg fs => ⟨_, rfl⟩)
        intro hb; cases wrapTag k <;> exact ha hb
      case link ix ht =>
        refine done b _ rfl hc' ?_ (fun seg fs => ⟨_, rfl⟩)
        intro hb; simp only [pushIf_ext]; exact ha hb
      case xref t =>
        refine done b _ rfl hc' ?_ (fun seg fs => ?_)
        · intro hb; simp only [pushIf_ext]; exact ha hb
        · simp only [pushIf_ext, ext_ext, State.ext, exit]; exact ⟨_, rfl⟩
      case xrefText bib =>
        refine done b _ rfl hc' ?_ (fun seg fs => ⟨_, rfl⟩)
        intro hb; simp only [pushIf_ext]; exact ha hb
      all_goals exact done b _ rfl hc' (fun hb => ha hb) (fun seg fs => ⟨_, rfl⟩)
    · obtain ⟨id, rfl⟩ : ∃ id, c = .footnote id := by
        apply Classical.byContradiction; intro hn; exact hf fun id e => hn ⟨id, e⟩
      simp only [around, List.cons_append, calm, calm_I hx, Bool.and_eq_true] at hc
      have hb : b = false := by simpa using hc.1
      have leave : ∀ v : State, ∃ t, exit (.footnote id) v = some t := by
        intro v
        simp only [exit]
        cases prevFootnote id v.footnotes 1 <;> exact ⟨_, rfl⟩
      have h0 := ha hb
      refine (?_ : ∃ u, enter (.footnote id) s = some u).elim fun u hu => done true u hu hc.2.1 (fun h => Bool.noConfusion h) (fun seg fs => leave _)
      simp only [enter, State.startBuffering]
      cases prevFootnote id s.footnotes 1 with
      | none => rw [if_pos h0]; exact ⟨_, rfl⟩
      | some n => rw [if_pos (by exact h0)]; exact ⟨_, rfl⟩

theorem enter_total {c : Call} (hc : hushed c = true) (hg : good (.enter c) = true) (s : State) : ∃ t, enter c s = some t := by
  cases c <;> try (exact Bool.noConfusion hc)
  case «section» i =>
    have : i.level ≤ 6 := by simpa [good] using hg
    simp only [enter, this, if_true]; exact ⟨_, rfl⟩
  all_goals
    simp only [enter]
    (repeat' split) <;> exact ⟨_, rfl⟩

theorem exit_total {c : Call} (hc : plainCall c = true) (s : State) : ∃ t, exit c s = some t := by
  cases c <;> try (exact Bool.noConfusion hc)
  all_goals
    simp only [exit]
    (repeat' split) <;> exact ⟨_, rfl⟩

/-- where in a document a trace is: `k`, if titles of paragraphs may not be shown there -/
def Flags (k : Bool) (s : State) : Prop := k = false → s.cur.attrs.inlineDoctype = false ∧ s.cur.simpleTerm = false

theorem Flags.keep {k : Bool} {s t : State} (h : Flags k s) (q : Keep s t) : Flags k t := by
  intro hk
  obtain ⟨h1, h2⟩ := h hk
  refine ⟨by rw [q.2.1]; exact h1, ?_⟩
  cases ht : t.cur.simpleTerm with
  | false => rfl
  | true => rw [q.2.2.1 ht] at h2; cases h2

/-- what no trace changes -/
def Same (s t : State) : Prop := t.outer = s.outer ∧ t.cur.attrs.inlineDoctype = s.cur.attrs.inlineDoctype
theorem Same.refl (s : State) : Same s s := ⟨rfl, rfl⟩
theorem Same.trans {s t u : State} (h : Same s t) (k : Same t u) : Same s u := ⟨k.1.trans h.1, k.2.trans h.2⟩
theorem same_of_keep {s t : State} (h : Keep s t) : Same s t := ⟨h.1, by rw [h.2.1]⟩

section
variable {inl : List Inline → List Ev} {k : Bool}

/-- the trace of some texts runs to its end -/
def TR (inl : List Inline → List Ev) (k : Bool) (evs : List Ev) (T : List (List Inline)) : Prop :=
  (∀ ns ∈ T, calm false (inl ns) = true) → (∀ e ∈ evs, good e = true) → ∀ s, Flags k s → s.cur.alt = [] →
    ∃ t, run evs s = some t ∧ Flags k t ∧ Same s t ∧ t.cur.alt = []

/-- the same when a title may wait in the buffer -/
def TB (inl : List Inline → List Ev) (k : Bool) (b : BlockInfo) (evs : List Ev) (T : List (List Inline)) : Prop :=
  (∀ ns ∈ T, calm false (inl ns) = true) → (∀ e ∈ evs, good e = true) → ∀ s, Flags k s → (b.hasTitle = false → s.cur.alt = []) →
    ∃ t, run evs s = some t ∧ Flags k t ∧ Same s t ∧ t.cur.alt = []

theorem TR_nil : TR inl k [] [] := fun _ _ s h1 h2 => ⟨s, rfl, h1, .refl s, h2⟩
theorem TR_append {a b : List Ev} {S T : List (List Inline)} (ha : TR inl k a S) (hb : TR inl k b T) : TR inl k (a ++ b) (S ++ T) := by
  intro hf hg s h1 h2
  obtain ⟨t, e1, a1, a2, a3⟩ := ha (fun ns h => hf ns (by simp [h])) (fun e h => hg e (by simp [h])) s h1 h2
  obtain ⟨u, e2, b1, b2, b3⟩ := hb (fun ns h => hf ns (by simp [h])) (fun e h => hg e (by simp [h])) t a1 a3
  exact ⟨u, by rw [run_append, e1]; exact e2, b1, a2.trans b2, b3⟩
theorem TR_cast {a : List Ev} {S T : List (List Inline)} (h : TR inl k a S) (e : S = T) : TR inl k a T := e ▸ h
theorem TR_quiet {e : Ev} (h1 : ∀ s, good e = true → ∃ t, step e s = some t) (h2 : ∀ s t, step e s = some t → Q s t) : TR inl k [e] [] := by
  intro _ hg s hs ha
  obtain ⟨t, ht⟩ := h1 s (hg e (by simp))
  have q := h2 s t ht
  exact ⟨t, by rw [run_one, ht], hs.keep q.1, same_of_keep q.1, q.2.2.1.trans ha⟩
theorem TR_around (c : Call) (hc : hushed c = true) (hi : ∀ b t l, c ≠ .image b t l) {a : List Ev} {T : List (List Inline)} (h : TR inl k a T) :
    TR inl k (around c a) T := by
  have h1 : TR inl k [.enter c] [] := TR_quiet (fun s hg => enter_total hc hg s) fun s t e => enter_hushed hc e
  have h2 : TR inl k [.exit c] [] := TR_quiet (fun s _ => exit_total (hushed_plain hc) s) fun s t e => exit_hushed (hushed_plain hc) hi e
  exact TR_cast (TR_append h1 (TR_append h h2)) (by simp)

theorem TB_of_TR {b : BlockInfo} {evs : List Ev} {T : List (List Inline)} (h : TR inl k evs T) (hb : b.hasTitle = false) : TB inl k b evs T :=
  fun hf hg s h1 h2 => h hf hg s h1 (h2 hb)

/-- a call around the content of a block, when entering it shows the title -/
theorem TB_block {b : BlockInfo} {c : Call} (hc : plainCall c = true) (hi : ∀ b t l, c ≠ .image b t l) {a : List Ev} {T : List (List Inline)}
    (ho : ∀ s, Flags k s → (b.hasTitle = false → s.cur.alt = []) → ∃ t, enter c s = some t ∧ Keep s t ∧ t.cur.alt = []) (h : TR inl k a T) : TB inl k b (around c a) T := by
  intro hf hg s h1 h2
  obtain ⟨u, e1, o1, o2⟩ := ho s h1 h2
  obtain ⟨v, e2, a1, a2, a3⟩ := h hf (fun e h => hg e (by simp [around, h])) u (h1.keep o1) o2
  obtain ⟨w, e3⟩ := exit_total hc v
  have q := exit_hushed hc hi e3
  refine ⟨w, ?_, a1.keep q.1, ((same_of_keep o1).trans a2).trans (same_of_keep q.1), q.2.2.1.trans a3⟩
  simp only [around, List.cons_append, run, step, e1, Option.bind_some]
  rw [run_append, e2]
  simp [run, step, e3]

/-- the calls that show the title of their block -/
def titled : Call → Option BlockInfo
  | .sidebar b | .openBlock b | .example b | .quote b _ | .verse b _ | .listing b | .literal b | .admonition b _ | .quotedParagraph b
  | .unorderedList b | .orderedList b | .descriptionList b | .table b => some b
  | _ => none

theorem open_titled {c : Call} {b : BlockInfo} (h : titled c = some b) (s : State) (ha : b.hasTitle = false → s.cur.alt = []) :
    ∃ t, enter c s = some t ∧ Keep s t ∧ t.cur.alt = [] := by
  have wrap : ∀ t, enter c s = some t → Opened s t → ∃ t, enter c s = some t ∧ Keep s t ∧ t.cur.alt = [] :=
    fun t e o => ⟨t, e, o.1, o.2.2.1⟩
  cases c <;> simp only [titled, reduceCtorEq, Option.some.injEq] at h <;> subst h
  case «example» =>
    have : ∃ t, enter (.example ‹_›) s = some t := by simp only [enter]; split <;> exact ⟨_, rfl⟩
    obtain ⟨t, e⟩ := this
    refine wrap t e ?_
    simp only [enter] at e
    split at e
    case isTrue =>
      cases e
      refine Opened.right ?_ ((Q.refl _).push rfl)
      split
      case isTrue =>
        refine ⟨⟨rfl, rfl, id, rfl⟩, rfl, rfl, ?_⟩
        simp [State.push, Frame.push, State.discardAlt, shown_append, shown]
      case isFalse h => exact .quiet (by hush) (ha (by simpa using h))
    case isFalse =>
      cases e
      opened ha
  case listing =>
    have : ∃ t, enter (.listing ‹_›) s = some t := by simp only [enter]; split <;> exact ⟨_, rfl⟩
    obtain ⟨t, e⟩ := this
    refine wrap t e ?_
    simp only [enter] at e
    split at e <;> cases e
    · refine Opened.push (Opened.flags ?_ _ rfl rfl rfl id rfl) rfl
      opened ha
    · opened ha
  case descriptionList =>
    have : ∃ t, enter (.descriptionList ‹_›) s = some t := by simp only [enter]; split <;> exact ⟨_, rfl⟩
    obtain ⟨t, e⟩ := this
    refine wrap t e ?_
    simp only [enter] at e
    split at e <;> cases e <;> opened ha
  all_goals
    refine wrap _ rfl ?_
    opened ha

theorem open_paragraph' {b : BlockInfo} (hd : k = true → b.hasTitle = false) (s : State) (hs : Flags k s) (ha : b.hasTitle = false → s.cur.alt = []) :
    ∃ t, enter (.paragraph b) s = some t ∧ Keep s t ∧ t.cur.alt = [] := by
  simp only [enter]
  split
  case isTrue hin =>
    refine ⟨s, rfl, .refl s, ha (hd ?_)⟩
    cases k with
    | true => rfl
    | false => rw [(hs rfl).1] at hin; cases hin
  case isFalse =>
    refine ⟨_, rfl, ?_⟩
    have : Opened s ((if s.cur.simpleTerm then s else (s.push [.opening .div]).bufferedTitle b).push [.opening (if b.isAbstract then .blockquote else .p)]) := by
      refine Opened.right (t := if s.cur.simpleTerm then s else (s.push [.opening .div]).bufferedTitle b) ?_ (by hush)
      split
      case isTrue h =>
        refine .quiet (.refl s) (ha (hd ?_))
        cases k with
        | true => rfl
        | false => rw [(hs rfl).2] at h; cases h
      case isFalse => exact Opened.left ((Q.refl s).push rfl) (Opened.bufferedTitle _ _ ha)
    exact ⟨this.1, this.2.2.1⟩

variable (hi : ∀ ns, I (inl ns))
include hi

theorem TR_inl (ns : List Inline) : TR inl k (inl ns) [ns] := by
  intro hf hg s h1 h2
  obtain ⟨t, e⟩ := runs_I (hi ns) false s (hf ns (by simp)) hg (fun _ => h2)
  obtain ⟨seg, fs, rfl, -, -⟩ := run_I (hi ns) s t e
  exact ⟨_, e, h1, ⟨rfl, rfl⟩, h2⟩

/-- a title and its block -/
theorem TR_titled {info : BlockInfo} {title : Option (List Inline)} {evs : List Ev} {T : List (List Inline)}
    (ht : ∀ ns, title = some ns → calm true (inl ns) = true)
    (h : TR inl k evs T ∧ info.context = .passthrough ∨ TB inl k (Eval.view info title) evs T ∧ info.context ≠ .passthrough) :
    TR inl k (evalTitle inl (Eval.view info title) title ++ evs) (optText title ++ T) := by
  intro hf hg s h1 h2
  cases title with
  | none =>
    have : TB inl k (Eval.view info none) evs T := by
      rcases h with ⟨h, -⟩ | ⟨h, -⟩
      · exact TB_of_TR h rfl
      · exact h
    exact this (fun ns h => hf ns (by simp [h])) (fun e h => hg e (by simp [h])) s h1 (fun _ => h2)
  | some ns =>
    have e1 : enter (.metaTitle (Eval.view info (some ns))) s = some s.swap := by simp only [enter, State.startBuffering, h2, if_true]
    obtain ⟨t, e2⟩ := runs_I (hi ns) true s.swap (ht ns rfl) (fun e h => hg e (by simp [evalTitle, around, h])) (fun h => Bool.noConfusion h)
    obtain ⟨seg, fs, rfl, -, -⟩ := run_I (hi ns) _ t e2
    have go : ∀ u, exit (.metaTitle (Eval.view info (some ns))) (s.swap.ext seg fs) = some u → run (evalTitle inl (Eval.view info (some ns)) (some ns) ++ evs) s = run evs u := by
      intro u hu
      simp only [evalTitle, around, List.cons_append, run, step, e1, Option.bind_some, List.append_assoc, List.nil_append]
      rw [run_append, e2]
      simp [run, step, hu]
    have hv : (Eval.view info (some ns)).context = info.context := rfl
    rcases h with ⟨h, hp⟩ | ⟨h, hp⟩
    · rw [go (s.swap.ext seg fs).swapTake.2 (by simp only [exit, hv, hp, if_true])]
      exact h (fun ns h => hf ns (by simp [h])) (fun e h => hg e (by simp [h])) (s.swap.ext seg fs).swapTake.2 h1 rfl
    · rw [go (s.swap.ext seg fs).swap (by simp only [exit, hv, hp, if_false])]
      exact h (fun ns h => hf ns (by simp [h])) (fun e h => hg e (by simp [h])) (s.swap.ext seg fs).swap h1 (fun x => by cases x)

macro "goes" hi:ident : tactic => `(tactic| repeat' (first
  | assumption
  | exact TR_nil | exact TR_inl $hi _
  | refine TR_around _ rfl (by intro _ _ _ h; cases h) ?_))

theorem simple_TR (b : BlockInfo) (ns : List Inline) : TR inl k (simple inl b ns) [ns] := by unfold simple; goes hi

theorem evalQuoteAttr_TR (b : BlockInfo) (a ci : Option (List Inline)) : TR inl k (evalQuoteAttr inl b a ci) (optText a ++ optText ci) := by
  cases a <;> cases ci <;> simp only [evalQuoteAttr, optText, List.nil_append, List.append_nil]
  · exact TR_nil
  · goes hi
  · goes hi
  · exact TR_append (by goes hi) (by goes hi)

mutual
theorem evalTocNode_TR : ∀ t : TocNode, TR inl k (evalTocNode inl t) (tocNodeTexts t)
  | .mk _ title [] => TR_cast (TR_around _ rfl (by intro _ _ _ h; cases h) (TR_append (S := [title]) (by goes hi) TR_nil)) (by simp [tocNodeTexts, tocTexts])
  | .mk _ title (x :: cs) => by
    have h := TR_append (evalTocNode_TR x) (evalTocNodes_TR cs)
    simp only [evalTocNode]
    exact TR_cast (TR_around _ rfl (by intro _ _ _ h; cases h) (TR_append (S := [title]) (T := tocNodeTexts x ++ tocTexts cs) (by goes hi) (by goes hi))) (by simp [tocNodeTexts, tocTexts])
theorem evalTocNodes_TR : ∀ ts : List TocNode, TR inl k (evalTocNodes inl ts) (tocTexts ts)
  | [] => TR_nil
  | t :: ts => TR_append (evalTocNode_TR t) (evalTocNodes_TR ts)
end

theorem evalTocAt_TR (toc : Option Toc) (ps : List TocPosition) : TR inl k (evalTocAt inl toc ps) (tocTextsAt toc ps) := by
  cases toc with
  | none => exact TR_nil
  | some t =>
    simp only [evalTocAt, tocTextsAt]
    by_cases h1 : t.position ∈ ps
    · by_cases h2 : t.nodes = []
      · rw [if_pos (.inr h2), if_pos h1, h2]; exact TR_nil
      · rw [if_neg (by simp [h1, h2]), if_pos h1]
        have := evalTocNodes_TR (k := k) hi t.nodes
        goes hi
    · rw [if_pos (.inl h1), if_neg h1]; exact TR_nil

theorem evalTerms_TR : ∀ (i : Nat) (ts : List (List Inline)), TR inl k (evalTerms inl i ts) ts
  | _, [] => TR_nil
  | i, t :: ts => TR_append (S := [t]) (by goes hi) (evalTerms_TR (i + 1) ts)

theorem evalCellParagraphs_TR (style : CellStyle) (s : TableSection) (m : Bool) : ∀ ps : List (List Inline), TR inl k (evalCellParagraphs inl style s m ps) ps
  | [] => TR_nil
  | p :: ps => TR_append (S := [p]) (by goes hi) (evalCellParagraphs_TR style s m ps)

theorem evalDocinfo_TR (e : Bool) (f : Option (List Inline)) : TR inl k (evalDocinfo inl e f) (if e then [] else optText f) := by
  cases f <;> cases e
  · exact TR_nil
  · exact TR_nil
  · exact TR_inl hi _
  · exact TR_nil


theorem TB_image {info : BlockInfo} {title : Option (List Inline)} {ti : Option Text} {l : Bool} :
    TB inl k (Eval.view info title) (around (.image (Eval.view info title) ti l) []) [] := by
  intro hf hg s hs ha
  obtain ⟨u, e1⟩ := enter_total (c := .image (Eval.view info title) ti l) rfl rfl s
  have q := enter_hushed (c := .image (Eval.view info title) ti l) rfl e1
  have ha' : (Eval.view info title).hasTitle = false → u.cur.alt = [] := fun x => q.2.2.1.trans (ha x)
  obtain ⟨t, e2⟩ := exit_total (c := .image (Eval.view info title) ti l) rfl u
  have key : Keep u t ∧ t.cur.alt = [] := by
    simp only [exit] at e2; cases e2
    clear e1
    cases ti with
    | none => have := Opened.push (Opened.bufferedTitle u (Eval.view info title) ha') (ts := [.closing .div]) rfl; exact ⟨this.1, this.2.2.1⟩
    | some x =>
      obtain ⟨h1, h2, h3, h4, h5, h6⟩ := takeCaption_keeps u.cur (Eval.view info title)
      have k1 : Keep u { u with cur := renderBlockTitle u.cur [.gen x] (Eval.view info title) } := ⟨rfl, h3, by intro x; rw [← h4]; exact x, h5⟩
      have k2 : (renderBlockTitle u.cur [.gen x] (Eval.view info title)).alt = u.cur.alt := h2
      dsimp only
      split
      case isTrue => exact ⟨⟨k1.1, k1.2.1, k1.2.2.1, k1.2.2.2⟩, rfl⟩
      case isFalse hh => exact ⟨⟨k1.1, k1.2.1, k1.2.2.1, k1.2.2.2⟩, k2.trans (ha' (by simpa using hh))⟩
  refine ⟨t, ?_, hs.keep (q.1.trans key.1), same_of_keep (q.1.trans key.1), key.2⟩
  simp [around, run, step, e1, e2]

theorem TB_visit {b : BlockInfo} (v : Visit) (hv : v = .audio b ∨ v = .video b) : TB inl k b [.visit v] [] := by
  intro hf hg s hs ha
  have o : ∃ t, step (.visit v) s = some t ∧ Opened s t := by
    rcases hv with rfl | rfl
    · refine ⟨_, rfl, ?_⟩; opened ha
    · refine ⟨_, rfl, ?_⟩; opened ha
  obtain ⟨t, e, o⟩ := o
  exact ⟨t, by rw [run_one]; exact e, hs.keep o.1, same_of_keep o.1, o.2.2.1⟩

/-- the document title, shown or not -/
theorem docTitle_TR (title : Option (List Inline)) (hc : ∀ ns, title = some ns → calm false (inl ns) = true) (hg : ∀ e ∈ evalDocTitle inl title, good e = true)
    (s : State) (hh : titleShown s.cur.attrs = false → ∀ ns, title = some ns → calm true (inl ns) = true)
    (ha : s.cur.alt = []) : ∃ t, run (evalDocTitle inl title) s = some t ∧ Keep s t ∧ t.cur.alt = [] := by
  cases title with
  | none => exact ⟨s, rfl, .refl s, ha⟩
  | some ns =>
    have hg' : ∀ e ∈ inl ns, good e = true := fun e h => hg e (by simp [evalDocTitle, around, h])
    have go : ∀ u v w, enter .documentTitle s = some u → run (inl ns) u = some v → exit .documentTitle v = some w → run (evalDocTitle inl (some ns)) s = some w := by
      intro u v w e1 e2 e3
      simp only [evalDocTitle, around, List.cons_append, run, step, e1, Option.bind_some]
      rw [run_append, e2]
      simp [run, step, e3]
    cases hr : titleShown s.cur.attrs with
    | true =>
      have hr' : s.cur.rendersTitle = true := hr
      obtain ⟨v, e2⟩ := runs_I (hi ns) false (s.push [.opening (.h 1)]) (hc ns rfl) hg' (fun _ => ha)
      obtain ⟨seg, fs, rfl, -, -⟩ := run_I (hi ns) _ v e2
      refine ⟨_, go _ _ (((s.push [.opening (.h 1)]).ext seg fs).push [.closing (.h 1)]) (by simp only [enter, hr', if_true]) e2 ?_, ⟨rfl, rfl, id, rfl⟩, ha⟩
      have : ((s.push [.opening (.h 1)]).ext seg fs).cur.rendersTitle = true := hr
      simp only [exit, this, if_true]
    | false =>
      have hr' : ¬ s.cur.rendersTitle = true := by
        have : s.cur.rendersTitle = titleShown s.cur.attrs := rfl
        rw [this, hr]; simp
      obtain ⟨v, e2⟩ := runs_I (hi ns) true s.swap (hh hr ns rfl) hg' (fun h => Bool.noConfusion h)
      obtain ⟨seg, fs, rfl, -, -⟩ := run_I (hi ns) _ v e2
      refine ⟨_, go _ _ (s.swap.ext seg fs).swapTake.2 (by simp only [enter]; rw [if_neg hr', State.startBuffering, if_pos ha]) e2 ?_, ⟨rfl, rfl, id, rfl⟩, rfl⟩
      have : ¬ (s.swap.ext seg fs).cur.rendersTitle = true := hr'
      simp only [exit]
      rw [if_neg this]

theorem docinfo_keeps' {e : Bool} {f : Option (List Inline)} {s t : State} (h : run (evalDocinfo inl e f) s = some t) : Keep s t := by
  cases f <;> cases e
  · cases h; exact .refl s
  · cases h; exact .refl s
  · obtain ⟨seg, fs, rfl, -, -⟩ := run_I (hi _) _ _ h; exact ⟨rfl, rfl, id, rfl⟩
  · cases h; exact .refl s

/-- a whole document, started in a new frame -/
theorem visit_runs (attrs : Meta) (title : Option (List Inline)) (toc : Option Toc) (head header footer : Option (List Inline)) (content : DocContent)
    (hk : attrs.inlineDoctype = true → k = true) (hh : titleShown attrs = false → ∀ ns, title = some ns → calm true (inl ns) = true)
    (hc : TR inl k (evalDocContent inl toc title.isSome content) (docContentTexts toc content))
    (hf : ∀ ns ∈ docTexts (.mk attrs title toc head header footer content), calm false (inl ns) = true)
    (hg : ∀ e ∈ visit inl (.mk attrs title toc head header footer content), good e = true)
    (s : State) (hs : s.cur.simpleTerm = false) (ha : s.cur.alt = []) :
    ∃ t, run (visit inl (.mk attrs title toc head header footer content)) s = some t ∧ t.outer = s.outer := by
  have hd : docTexts (.mk attrs title toc head header footer content) =
      (if attrs.embedded then [] else optText head) ++ (if attrs.embedded then [] else optText header) ++ optText title ++
        tocTextsAt toc [.auto, .left, .right] ++ docContentTexts toc content ++ (if attrs.embedded then [] else optText footer) := by
    simp only [docTexts]
    cases attrs.embedded <;> simp
  rw [hd] at hf
  simp only [visit] at hg ⊢
  -- the pieces
  have hu0 : ∃ u, enter (.document attrs) s = some u ∧ Flags k u ∧ u.cur.alt = [] ∧ u.outer = s.outer ∧ u.cur.attrs = attrs := by
    refine ⟨_, rfl, ?_⟩
    have q : Q { s with cur := { s.cur with attrs := attrs } } (State.pushIf { s with cur := { s.cur with attrs := attrs } } (Frame.standalone { s.cur with attrs := attrs })
      [.opening .html, .opening .head, .void .metaTag, .opening .title, .closing .title, .opening .style, .closing .style]) := (Q.refl _).pushIf rfl
    have key : Flags k { s with cur := { s.cur with attrs := attrs } } := by
      intro h
      refine ⟨?_, hs⟩
      cases hin : attrs.inlineDoctype with
      | false => rfl
      | true => rw [hk hin] at h; cases h
    exact ⟨key.keep q.1, q.2.2.1.trans ha, q.1.1, q.1.2.1⟩
  obtain ⟨u0, e0, f0, a0, o0, m0⟩ := hu0
  obtain ⟨s1, e1, f1, o1, a1⟩ := evalDocinfo_TR hi attrs.embedded head (fun ns h => hf ns (by simp [h])) (fun e h => hg e (by simp [around, h])) u0 f0 a0
  have m1 : s1.cur.attrs = attrs := (docinfo_keeps' hi e1).2.1.trans m0
  obtain ⟨s2, e2⟩ := enter_total (c := .body) rfl rfl s1
  have q2 := enter_hushed (c := .body) rfl e2
  obtain ⟨s3, e3, f3, o3, a3⟩ := evalDocinfo_TR hi attrs.embedded header (fun ns h => hf ns (by simp [h])) (fun e h => hg e (by simp [around, h])) s2 (f1.keep q2.1) (q2.2.2.1.trans a1)
  have m3 : s3.cur.attrs = attrs := (docinfo_keeps' hi e3).2.1.trans (q2.1.2.1.trans m1)
  obtain ⟨s4, e4⟩ := enter_total (c := .header) rfl rfl s3
  have q4 := enter_hushed (c := .header) rfl e4
  obtain ⟨s5, e5, k5, a5⟩ := docTitle_TR hi title (fun ns h => hf ns (by simp [h, optText])) (fun e h => hg e (by simp [around, h])) s4
    (by rw [q4.1.2.1, m3]; exact hh) (q4.2.2.1.trans a3)
  obtain ⟨s6, e6⟩ := exit_total (c := .header) rfl s5
  have q6 := exit_hushed (c := .header) rfl (by intro _ _ _ h; cases h) e6
  have f6 : Flags k s6 := ((f3.keep q4.1).keep k5).keep q6.1
  obtain ⟨s7, e7, f7, o7, a7⟩ := evalTocAt_TR hi toc [.auto, .left, .right] (fun ns h => hf ns (by simp [h])) (fun e h => hg e (by simp [around, h])) s6 f6 (q6.2.2.1.trans a5)
  obtain ⟨s8, e8, f8, o8, a8⟩ := TR_around .content rfl (by intro _ _ _ h; cases h) hc (fun ns h => hf ns (by simp [h]))
    (fun e h => hg e (by simp only [around, List.mem_cons, List.mem_append] at h ⊢; simp only [h, true_or, or_true])) s7 f7 a7
  have hfoot : ∃ t, enter .footer s8 = some t ∧ Keep s8 t ∧ t.cur.alt = s8.cur.alt := by
    refine ⟨_, rfl, ?_⟩
    simp only [pushIf_ext]
    exact ⟨⟨rfl, rfl, id, rfl⟩, rfl⟩
  obtain ⟨s9, e9, k9, a9⟩ := hfoot
  obtain ⟨s10, e10⟩ := exit_total (c := .footer) rfl s9
  have q10 := exit_hushed (c := .footer) rfl (by intro _ _ _ h; cases h) e10
  obtain ⟨s11, e11, f11, o11, a11⟩ := evalDocinfo_TR hi attrs.embedded footer (fun ns h => hf ns (by simp [h])) (fun e h => hg e (by simp [around, h])) s10
    ((f8.keep k9).keep q10.1) (q10.2.2.1.trans (a9.trans a8))
  obtain ⟨s12, e12⟩ := exit_total (c := .body) rfl s11
  have q12 := exit_hushed (c := .body) rfl (by intro _ _ _ h; cases h) e12
  refine ⟨s12, ?_, ?_⟩
  · have r8 : run (around .content (evalDocContent inl toc title.isSome content)) s7 = some s8 := e8
    have r6 : run (around .header (evalDocTitle inl title)) s3 = some s6 := by
      simp only [around, List.cons_append, run, step, e4, Option.bind_some]
      rw [run_append, e5]
      simp [run, step, e6]
    have r10 : run (around .footer []) s8 = some s10 := by simp [around, run, step, e9, e10]
    have inner : run (evalDocinfo inl attrs.embedded header ++ around .header (evalDocTitle inl title) ++ evalTocAt inl toc [.auto, .left, .right] ++
        around .content (evalDocContent inl toc title.isSome content) ++ around .footer [] ++ evalDocinfo inl attrs.embedded footer) s2 = some s11 := by
      simp only [List.append_assoc]
      rw [run_append, e3, Option.bind_some, run_append, r6, Option.bind_some, run_append, e7, Option.bind_some, run_append, r8, Option.bind_some,
        run_append, r10, Option.bind_some, e11]
    have hbody : run (around .body (evalDocinfo inl attrs.embedded header ++ around .header (evalDocTitle inl title) ++ evalTocAt inl toc [.auto, .left, .right] ++
        around .content (evalDocContent inl toc title.isSome content) ++ around .footer [] ++ evalDocinfo inl attrs.embedded footer)) s1 = some s12 := by
      generalize (evalDocinfo inl attrs.embedded header ++ around .header (evalDocTitle inl title) ++ evalTocAt inl toc [.auto, .left, .right] ++
        around .content (evalDocContent inl toc title.isSome content) ++ around .footer [] ++ evalDocinfo inl attrs.embedded footer) = z at inner
      simp only [around, List.cons_append, run, step, e2, Option.bind_some]
      rw [run_append, inner]
      simp [run, step, e12]
    generalize around Call.body (evalDocinfo inl attrs.embedded header ++ around .header (evalDocTitle inl title) ++ evalTocAt inl toc [.auto, .left, .right] ++
        around .content (evalDocContent inl toc title.isSome content) ++ around .footer [] ++ evalDocinfo inl attrs.embedded footer) = z at hbody
    rw [show around (Call.document attrs) (evalDocinfo inl attrs.embedded head ++ z) = .enter (.document attrs) :: (evalDocinfo inl attrs.embedded head ++ z ++ [.exit (.document attrs)]) from rfl]
    simp only [List.cons_append, run, step, e0, Option.bind_some, List.append_assoc]
    rw [run_append, e1, Option.bind_some, run_append, hbody]
    simp [run, step, exit]
  · rw [q12.1.1, o11.1, q10.1.1, k9.1, o8.1, o7.1, q6.1.1, k5.1, q4.1.1, o3.1, q2.1.1, o1.1, o0]

/-- the conditions on blocks -/
abbrev okb (inl : List Inline → List Ev) (k : Bool) (b : Block) : Prop := wf b ∧ blockFits inl b ∧ (k = true → plainParagraph b)

/-- a document in a cell -/
theorem TR_cellDocument {evs : List Ev} {T : List (List Inline)}
    (h : (∀ ns ∈ T, calm false (inl ns) = true) → (∀ e ∈ evs, good e = true) → ∀ s : State, s.cur.simpleTerm = false → s.cur.alt = [] → ∃ t, run evs s = some t ∧ t.outer = s.outer) :
    TR inl k (around .cellDocument evs) T := by
  intro hf hg s hs ha
  obtain ⟨w, e2, a2⟩ := h hf (fun e h => hg e (by simp [around, h])) { s with cur := { inCell := true }, outer := s.cur :: s.outer } rfl rfl
  have a2 : w.outer = s.cur :: s.outer := a2
  have e3 : exit .cellDocument w = some { w with cur := { s.cur with html := s.cur.html ++ w.cur.html, inCell := false }, outer := s.outer } := by simp only [exit, a2]
  refine ⟨{ w with cur := { s.cur with html := s.cur.html ++ w.cur.html, inCell := false }, outer := s.outer }, ?_, hs, ⟨rfl, rfl⟩, ha⟩
  simp only [around, List.cons_append, run, step, enter, Option.bind_some]
  rw [run_append, e2]
  simp only [Option.bind_some, run, step, e3]

/-- a description that starts on the line of its term -/
theorem TR_descriptionText {e : Bool} {evs : List Ev} {T : List (List Inline)} (h : TR inl true evs T) : TR inl k (around (.descriptionText e) evs) T := by
  intro hf hg s hs ha
  obtain ⟨w, e2, a1, a2, a3⟩ := h hf (fun e h => hg e (by simp [around, h])) { s with cur := { s.cur with simpleTerm := true } } (fun h => Bool.noConfusion h) ha
  refine ⟨{ w with cur := { w.cur with simpleTerm := false } }, ?_, ?_, a2, a3⟩
  · simp only [around, List.cons_append, run, step, enter, Option.bind_some]
    rw [run_append, e2]
    simp only [Option.bind_some, run, step, exit]
  · intro h
    exact ⟨a2.2.trans (hs h).1, rfl⟩

theorem TR_declaration (m : Meta) : TR inl k [.visit (.declaration m)] [] := by
  intro hf hg s hs ha
  exact ⟨_, rfl, hs, ⟨rfl, rfl⟩, ha⟩

omit hi in
theorem noTitle' {info : BlockInfo} {title a ci : Option (List Inline)} {x : Content} (h : blockFits inl (.mk info title a ci x))
    (hc : Spec.Notes.showsTitle info.context = false) (hp : info.context ≠ .passthrough) : (Eval.view info title).hasTitle = false := by
  cases title with
  | none => rfl
  | some ns =>
    rcases (h.1 ns rfl).2 with h | h
    · rw [hc] at h; cases h
    · exact absurd h hp

end

section
variable {inl : List Inline → List Ev} (hi : ∀ ns, I (inl ns))
include hi

mutual
theorem evalBlock_TR (k : Bool) (toc : Option Toc) : ∀ b : Block, AllBlock (okb inl k) b → TR inl k (evalBlock inl toc b) (blockTexts toc b)
  | .mk info title a ci content, h => by
    refine TR_cast (TR_titled (T := contentTexts toc info.context content ++ quoteTexts info.context a ci) hi (fun ns hn => (h.1.2.1.1 ns hn).1) ?_)
      (by simp only [blockTexts, quoteTexts, List.append_assoc])
    by_cases hp : info.context = .passthrough
    · refine .inl ⟨?_, hp⟩
      obtain ⟨ns, rfl⟩ : ∃ ns, content = .simple ns := by
        have hw : Fits info.context content = true := h.1.1
        rw [hp] at hw
        cases content <;> first | exact ⟨_, rfl⟩ | cases hw
      have hv : (Eval.view info title).context = .passthrough := hp
      simp only [evalContent, contentTexts, quoteTexts, hv, hp]
      exact TR_around _ rfl (by intro _ _ _ h; cases h) (simple_TR hi _ ns)
    · exact .inr ⟨evalContent_TB k toc info title a ci hp content h.1 h.2, hp⟩
theorem evalContent_TB (k : Bool) (toc : Option Toc) (info : BlockInfo) (title a ci : Option (List Inline)) (np : info.context ≠ .passthrough) : ∀ x : Content,
    okb inl k (.mk info title a ci x) → AllContent (okb inl k) x →
    TB inl k (Eval.view info title) (evalContent inl toc (Eval.view info title) a ci x) (contentTexts toc info.context x ++ quoteTexts info.context a ci)
  | .simple ns, ho, _ => by
    have h1 : ∀ {b}, TR inl k (simple inl b ns) [ns] := fun {b} => simple_TR hi b ns
    have h2 := evalQuoteAttr_TR (k := k) hi (Eval.view info title) a ci
    have h3 := fun {b} => TR_append (h1 (b := b)) h2
    rcases fits_simple ho.1 with h | h | h | h | h | h | h | h | h <;>
      simp only [evalContent, contentTexts, quoteTexts, Eval.view, h] <;> simp only [Eval.view, h] at h2 h3
    · refine TB_block rfl (by intro _ _ _ h; cases h) (open_paragraph' fun hd => ?_) h1
      have := ho.2.2 hd h; rw [this]; rfl
    · exact TB_block rfl (by intro _ _ _ h; cases h) (fun s _ ha => open_titled rfl s ha) h1
    · exact TB_block rfl (by intro _ _ _ h; cases h) (fun s _ ha => open_titled rfl s ha) h1
    · exact TB_block rfl (by intro _ _ _ h; cases h) (fun s _ ha => open_titled rfl s ha) h3
    · exact TB_block rfl (by intro _ _ _ h; cases h) (fun s _ ha => open_titled rfl s ha) h3
    · exact TB_block rfl (by intro _ _ _ h; cases h) (fun s _ ha => open_titled rfl s ha) h1
    · exact TB_block rfl (by intro _ _ _ h; cases h) (fun s _ ha => open_titled rfl s ha) (TR_inl hi ns)
    · exact TB_block rfl (by intro _ _ _ h; cases h) (fun s _ ha => open_titled rfl s ha) h1
    · exact absurd h np
  | .compound bs, ho, ha => by
    have h0 := evalBlocks_TR k toc bs ha
    have h1 : TR inl k (around .compoundContent (evalBlocks inl toc bs)) (blocksTexts toc bs) := TR_around _ rfl (by intro _ _ _ h; cases h) h0
    have h2 := evalQuoteAttr_TR (k := k) hi (Eval.view info title) a ci
    have h3 := TR_append h1 h2
    have h1' := TR_cast h1 (List.append_nil _).symm
    rcases fits_compound ho.1 with h | h | h | h | h <;> simp only [evalContent, contentTexts, quoteTexts, Eval.view, h] <;> simp only [Eval.view, h] at h2 h3
    · exact TB_block rfl (by intro _ _ _ h; cases h) (fun s _ ha => open_titled rfl s ha) h1'
    · exact TB_block rfl (by intro _ _ _ h; cases h) (fun s _ ha => open_titled rfl s ha) h3
    · exact TB_block rfl (by intro _ _ _ h; cases h) (fun s _ ha => open_titled rfl s ha) h1'
    · exact TB_block rfl (by intro _ _ _ h; cases h) (fun s _ ha => open_titled rfl s ha) h1'
    · exact TB_block rfl (by intro _ _ _ h; cases h) (fun s _ ha => open_titled rfl s ha) h1'
  | .quoted q at' co, ho, _ => by
    have h := fits_quoted ho.1
    have h2 := evalQuoteAttr_TR (k := k) hi (Eval.view info title) (some at') co
    simp only [evalContent, contentTexts, quoteTexts, Eval.view, h]
    simp only [Eval.view, h] at h2
    exact TB_block rfl (by intro _ _ _ h; cases h) (fun s _ ha => open_titled rfl s ha) (TR_cast (TR_append (TR_inl hi q) h2) (by simp [optText]))
  | .list v items, ho, ha => by
    rcases fits_list ho.1 with ⟨h, hp⟩ | ⟨h, hp⟩
    · simp only [evalContent, contentTexts, quoteTexts, Eval.view, h]
      refine TB_block rfl (by intro _ _ _ h; cases h) (fun s _ ha => open_titled rfl s ha) (TR_cast (evalDescItems_TR k toc items hp ?_ ha) (by simp))
      exact fun i hi => ho.2.1.2.1 v items rfl i hi
    · have h1 := TR_cast (evalItems_TR k toc v items hp ha) (List.append_nil _).symm
      rcases h with h | h | h <;> simp only [evalContent, contentTexts, quoteTexts, Eval.view, h]
      · exact TB_block rfl (by intro _ _ _ h; cases h) (fun s _ ha => open_titled rfl s ha) h1
      · exact TB_block rfl (by intro _ _ _ h; cases h) (fun s _ ha => open_titled rfl s ha) h1
      · have := noTitle' ho.2.1 (by rw [h]; rfl) np
        simp only [Eval.view] at this
        exact TB_of_TR (TR_around _ rfl (by intro _ _ _ h; cases h) h1) this
  | .section s, ho, ha => by
    have h := fits_section ho.1
    have := noTitle' ho.2.1 (by rw [h]; rfl) np
    simp only [evalContent, contentTexts, quoteTexts, Eval.view, h] at this ⊢
    exact TB_of_TR (TR_cast (evalSect_TR k toc s ha) (by simp)) this
  | .table header rows footer, ho, ha => by
    have h := fits_table ho.1
    have hk := ho.2.1.2.2 header rows footer rfl
    simp only [evalContent, contentTexts, quoteTexts, Eval.view, h]
    refine TB_block rfl (by intro _ _ _ h; cases h) (fun s _ ha => open_titled rfl s ha) (TR_cast (TR_append (TR_append
      (evalEdge_TR k .header header hk.1 ha.1)
      (evalBody_TR k rows hk.2.1 ha.2.1))
      (evalEdge_TR k .footer footer hk.2.2 ha.2.2)) (by simp))
  | .image t l, ho, _ => by
    have h := fits_image ho.1
    have := TB_image (k := k) (info := info) (title := title) (ti := t) (l := l) hi
    have hv : (Eval.view info title).context = .image := h
    simp only [evalContent, contentTexts, quoteTexts, hv, h]
    exact this
  | .audioVideo, ho, _ => by
    rcases fits_audioVideo ho.1 with h | h <;> simp only [evalContent, contentTexts, quoteTexts, Eval.view, h]
    · exact TB_visit hi _ (.inl rfl)
    · exact TB_visit hi _ (.inr rfl)
  | .heading l ns, ho, _ => by
    have h := fits_heading ho.1
    have := noTitle' ho.2.1 (by rw [h]; rfl) np
    simp only [evalContent, contentTexts, quoteTexts, Eval.view, h] at this ⊢
    exact TB_of_TR (TR_around _ rfl (by intro _ _ _ h; cases h) (TR_inl hi ns)) this
  | .declaration m, ho, _ => by
    have h := fits_declaration ho.1
    have := noTitle' ho.2.1 (by rw [h]; rfl) np
    simp only [evalContent, contentTexts, quoteTexts, Eval.view, h] at this ⊢
    exact TB_of_TR (TR_declaration hi m) this
  | .empty, ho, _ => by
    rcases fits_empty ho.1 with h | h | h | h <;> have := noTitle' ho.2.1 (by rw [h]; rfl) np <;>
      simp only [evalContent, contentTexts, quoteTexts, Eval.view, h, evalOther] at this ⊢ <;> refine TB_of_TR ?_ this
    · exact TR_quiet (fun s _ => ⟨_, rfl⟩) fun s t e => by simp only [step, visitCall] at e; cases e; hush
    · exact TR_quiet (fun s _ => ⟨_, rfl⟩) fun s t e => by simp only [step, visitCall] at e; cases e; hush
    · exact TR_cast (evalTocAt_TR hi toc [.byMacro]) (by simp)
    · exact TR_nil
theorem evalBlocks_TR (k : Bool) (toc : Option Toc) : ∀ bs : List Block, AllBlocks (okb inl k) bs → TR inl k (evalBlocks inl toc bs) (blocksTexts toc bs)
  | [], _ => TR_nil
  | b :: bs, h => TR_append (evalBlock_TR k toc b h.1) (evalBlocks_TR k toc bs h.2)
theorem evalItem_TR (k : Bool) (toc : Option Toc) (v : Variant) : ∀ i : Item, isPlain i = true → AllItem (okb inl k) i → TR inl k (evalItem inl toc v i) (itemTexts toc i)
  | .plain p bs, _, h => TR_append (S := [p]) (by goes hi) (TR_around _ rfl (by intro _ _ _ h; cases h) (evalBlocks_TR k toc bs h))
  | .desc p _ _ bs, h, _ => by cases h
theorem evalItems_TR (k : Bool) (toc : Option Toc) (v : Variant) : ∀ is : List Item, is.all isPlain = true → AllItems (okb inl k) is → TR inl k (evalItems inl toc v is) (itemsTexts toc is)
  | [], _, _ => TR_nil
  | i :: is, hp, h => by
    rw [List.all_cons, Bool.and_eq_true] at hp
    exact TR_append (evalItem_TR k toc v i hp.1 h.1) (evalItems_TR k toc v is hp.2 h.2)
theorem evalDescItem_TR (k : Bool) (toc : Option Toc) : ∀ i : Item, (!isPlain i) = true → itemOk i → AllItem (okb inl k) i → TR inl k (evalDescItem inl toc i) (itemTexts toc i)
  | .plain _ _, h, _, _ => by cases h
  | .desc p ex none [], _, _, h => TR_cast (TR_append (evalTerms_TR hi 1 (p :: ex)) TR_nil) (by simp [itemTexts, blocksTexts])
  | .desc p ex none (b :: bs), _, _, h => TR_cast (TR_append (evalTerms_TR hi 1 (p :: ex)) (TR_around _ rfl (by intro _ _ _ h; cases h)
      (TR_append (TR_around _ rfl (by intro _ _ _ h; cases h) (evalBlock_TR k toc b h.2.1)) (evalDescBlocks_TR k toc bs h.2.2)))) (by simp [itemTexts, blocksTexts])
  | .desc p ex (some d) bs, _, hk, h => TR_cast (TR_append (evalTerms_TR hi 1 (p :: ex)) (TR_around .description rfl (by intro _ _ _ h; cases h)
      (TR_append (TR_descriptionText hi (evalBlock_TR true toc d
        (AllBlock.imp (fun b h => ⟨h.1.1, h.1.2.1, fun _ => h.2⟩) d (AllBlock.and d h.1 (hk p ex d bs rfl))))) (evalDescBlocks_TR k toc bs h.2)))) (by simp [itemTexts])
theorem evalDescItems_TR (k : Bool) (toc : Option Toc) : ∀ is : List Item, is.all (fun i => !isPlain i) = true → (∀ i ∈ is, itemOk i) → AllItems (okb inl k) is →
    TR inl k (evalDescItems inl toc is) (itemsTexts toc is)
  | [], _, _, _ => TR_nil
  | i :: is, hp, hk, h => by
    rw [List.all_cons, Bool.and_eq_true] at hp
    exact TR_append (evalDescItem_TR k toc i hp.1 (hk i (by simp)) h.1) (evalDescItems_TR k toc is hp.2 (fun j hj => hk j (by simp [hj])) h.2)
theorem evalDescBlocks_TR (k : Bool) (toc : Option Toc) : ∀ bs : List Block, AllBlocks (okb inl k) bs → TR inl k (evalDescBlocks inl toc bs) (blocksTexts toc bs)
  | [], _ => TR_nil
  | b :: bs, h => TR_append (TR_around _ rfl (by intro _ _ _ h; cases h) (evalBlock_TR k toc b h.1)) (evalDescBlocks_TR k toc bs h.2)
theorem evalSect_TR (k : Bool) (toc : Option Toc) : ∀ s : Sect, AllSect (okb inl k) s → TR inl k (evalSect inl toc s) (sectTexts toc s)
  | .mk info h bs, ha => TR_around _ rfl (by intro _ _ _ h; cases h) (TR_append (S := [h]) (by goes hi) (evalBlocks_TR k toc bs ha))
theorem evalSects_TR (k : Bool) (toc : Option Toc) : ∀ ss : List Sect, AllSects (okb inl k) ss → TR inl k (evalSects inl toc ss) (sectsTexts toc ss)
  | [], _ => TR_nil
  | s :: ss, h => TR_append (evalSect_TR k toc s h.1) (evalSects_TR k toc ss h.2)
theorem evalCell_TR (k : Bool) (s : TableSection) : ∀ x : Cell, cellFits inl x → AllCell (okb inl k) x → TR inl k (evalCell inl s x) (cellTexts x)
  | .paragraphs style ps, _, _ => TR_around _ rfl (by intro _ _ _ h; cases h) (evalCellParagraphs_TR hi style s _ ps)
  | .literal ns, _, _ => TR_around _ rfl (by intro _ _ _ h; cases h) (TR_inl hi ns)
  | .asciidoc (.mk attrs title toc head header footer content), hk, h => by
    refine TR_around _ rfl (by intro _ _ _ h; cases h) (TR_cellDocument hi fun hf hg s hs ha => ?_)
    have h' : AllDocContent (okb inl attrs.inlineDoctype) content := by
      cases hin : attrs.inlineDoctype with
      | false => exact AllDocContent.imp (fun b h => ⟨h.1, h.2.1, fun h => Bool.noConfusion h⟩) content h
      | true => exact AllDocContent.imp (fun b h => ⟨h.1.1, h.1.2.1, fun _ => h.2⟩) content (AllDocContent.and content h (hk.2 hin))
    exact visit_runs hi attrs title toc head header footer content id hk.1 (evalDocContent_TR attrs.inlineDoctype toc title.isSome content h') hf hg s hs ha
theorem evalCells_TR (k : Bool) (s : TableSection) : ∀ cs : List Cell, (∀ x ∈ cs, cellFits inl x) → AllCells (okb inl k) cs →
    TR inl k (evalCells inl s cs) (cellsTexts cs)
  | [], _, _ => TR_nil
  | x :: cs, hk, h => TR_append (evalCell_TR k s x (hk x (by simp)) h.1) (evalCells_TR k s cs (fun y hy => hk y (by simp [hy])) h.2)
theorem evalEdge_TR (k : Bool) (s : TableSection) : ∀ cs : Option (List Cell), (∀ x ∈ cs.getD [], cellFits inl x) → AllEdge (okb inl k) cs →
    TR inl k (evalEdge inl s cs) (edgeTexts cs)
  | none, _, _ => TR_nil
  | some cs, hk, h => TR_around _ rfl (by intro _ _ _ h; cases h) (TR_around _ rfl (by intro _ _ _ h; cases h) (evalCells_TR k s cs hk h))
theorem evalBody_TR (k : Bool) : ∀ rs : List (List Cell), (∀ r ∈ rs, ∀ x ∈ r, cellFits inl x) → AllRows (okb inl k) rs →
    TR inl k (evalBody inl rs) (rowsTexts rs)
  | [], _, _ => TR_nil
  | r :: rs, hk, h => TR_around _ rfl (by intro _ _ _ h; cases h) (TR_append (TR_around _ rfl (by intro _ _ _ h; cases h) (evalCells_TR k .body r (hk r (by simp)) h.1))
      (evalRows_TR k rs (fun q hq => hk q (by simp [hq])) h.2))
theorem evalRows_TR (k : Bool) : ∀ rs : List (List Cell), (∀ r ∈ rs, ∀ x ∈ r, cellFits inl x) → AllRows (okb inl k) rs →
    TR inl k (evalRows inl rs) (rowsTexts rs)
  | [], _, _ => TR_nil
  | r :: rs, hk, h => TR_append (TR_around _ rfl (by intro _ _ _ h; cases h) (evalCells_TR k .body r (hk r (by simp)) h.1))
      (evalRows_TR k rs (fun q hq => hk q (by simp [hq])) h.2)
theorem evalPart_TR (k : Bool) (toc : Option Toc) : ∀ p : Part, AllPart (okb inl k) p → TR inl k (evalPart inl toc p) (partTexts toc p)
  | .mk t bt none ss, h => TR_cast (TR_around _ rfl (by intro _ _ _ h; cases h) (TR_append (TR_append (S := [t]) (by goes hi) TR_nil) (evalSects_TR k toc ss h.2))) (by simp [partTexts])
  | .mk t none (some bs) ss, h => TR_cast (TR_around _ rfl (by intro _ _ _ h; cases h) (TR_append (TR_append (S := [t]) (by goes hi) (TR_around _ rfl (by intro _ _ _ h; cases h) (TR_append TR_nil
      (TR_around _ rfl (by intro _ _ _ h; cases h) (evalBlocks_TR k toc bs h.1))))) (evalSects_TR k toc ss h.2))) (by simp [partTexts, optText])
  | .mk t (some ns) (some bs) ss, h => TR_cast (TR_around _ rfl (by intro _ _ _ h; cases h) (TR_append (TR_append (S := [t]) (by goes hi) (TR_around _ rfl (by intro _ _ _ h; cases h) (TR_append (TR_inl hi ns)
      (TR_around _ rfl (by intro _ _ _ h; cases h) (evalBlocks_TR k toc bs h.1))))) (evalSects_TR k toc ss h.2))) (by simp [partTexts, optText])
theorem evalParts_TR (k : Bool) (toc : Option Toc) : ∀ ps : List Part, AllParts (okb inl k) ps → TR inl k (evalParts inl toc ps) (partsTexts toc ps)
  | [], _ => TR_nil
  | p :: ps, h => TR_append (evalPart_TR k toc p h.1) (evalParts_TR k toc ps h.2)
theorem evalDocContent_TR (k : Bool) (toc : Option Toc) (t : Bool) : ∀ x : DocContent, AllDocContent (okb inl k) x → TR inl k (evalDocContent inl toc t x) (docContentTexts toc x)
  | .blocks bs, h => evalBlocks_TR k toc bs h
  | .sections none ss, h => evalSects_TR k toc ss h.2
  | .sections (some bs) ss, h => TR_append (TR_around _ rfl (by intro _ _ _ h; cases h) (TR_append (evalBlocks_TR k toc bs h.1) (evalTocAt_TR hi toc [.preamble]))) (evalSects_TR k toc ss h.2)
  | .parts none o ps x, h => TR_append (TR_append (evalSects_TR k toc o h.2.1) (evalParts_TR k toc ps h.2.2.1)) (evalSects_TR k toc x h.2.2.2)
  | .parts (some bs) o ps x, h => TR_append (TR_append (TR_around _ rfl (by intro _ _ _ h; cases h) (TR_append (TR_append (evalBlocks_TR k toc bs h.1) (evalSects_TR k toc o h.2.1))
      (evalTocAt_TR hi toc [.preamble]))) (evalParts_TR k toc ps h.2.2.1)) (evalSects_TR k toc x h.2.2.2)end

theorem visit_total (d : Doc) (h : Renderable inl d) (s : State) (hs : s.cur.simpleTerm = false) (ha : s.cur.alt = []) : ∃ t, run (visit inl d) s = some t := by
  obtain ⟨attrs, title, toc, head, header, footer, content⟩ := d
  have h0 := AllDoc.and _ h.formed h.blocks
  have h' : AllDocContent (okb inl attrs.inlineDoctype) content := by
    cases hin : attrs.inlineDoctype with
    | false => exact AllDocContent.imp (fun b h => ⟨h.1, h.2, fun h => Bool.noConfusion h⟩) content h0
    | true => exact AllDocContent.imp (fun b h => ⟨h.1.1, h.1.2, fun _ => h.2⟩) content (AllDocContent.and content h0 (h.doc.2 hin))
  obtain ⟨t, e, -⟩ := visit_runs hi attrs title toc head header footer content id h.doc.1 (evalDocContent_TR hi attrs.inlineDoctype toc title.isSome content h') h.texts h.calls s hs ha
  exact ⟨t, e⟩
end
end Verif.Html.Renders

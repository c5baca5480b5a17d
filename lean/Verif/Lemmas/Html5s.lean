import Verif.Model.Html5s
import Verif.Lemmas.Balanced
/-! Lemmas about the semantic HTML backend: what inline traces write. -/
set_option linter.unusedSectionVars false
set_option linter.unusedVariables false
set_option linter.unusedSimpArgs false
namespace Verif.Html5s
open Verif.Ast Verif.Eval Verif.Html Verif.Spec.Html
open Verif.Html (State Frame)

theorem run_append (a b : List Ev) (s : State) : run (a ++ b) s = (run a s).bind (run b) := by
  induction a generalizing s with
  | nil => rfl
  | cons e a ih =>
    simp only [List.cons_append, run]
    cases step e s with
    | none => rfl
    | some t => exact ih t

theorem run_one (e : Ev) (s : State) : run [e] s = step e s := by
  simp only [run]; cases step e s <;> rfl

theorem run_append_some {a b : List Ev} {s s' : State} (h : run (a ++ b) s = some s') :
    ∃ t, run a s = some t ∧ run b t = some s' := by
  rw [run_append] at h
  cases ha : run a s with
  | none => rw [ha] at h; cases h
  | some t => rw [ha] at h; exact ⟨t, rfl, h⟩

theorem run_around {c : Call} {a : List Ev} {s s' : State} (h : run (around c a) s = some s') :
    ∃ t u, enter c s = some t ∧ run a t = some u ∧ exit c u = some s' := by
  obtain ⟨t, h1, h2⟩ := run_append_some (a := [.enter c]) h
  obtain ⟨u, h3, h4⟩ := run_append_some h2
  exact ⟨t, u, by rw [← h1, run_one]; rfl, h3, by rw [← h4, run_one]; rfl⟩

theorem leafToks_seg (s : Frame) (b : Bool) (l : Leaf) : Seg b (leafToks s l) := by
  have ha : Tag.a ≠ .xrefA := by decide
  have hb : Tag.b ≠ .xrefA := by decide
  have hi : Tag.i ≠ .xrefA := by decide
  have hk : Tag.kbd ≠ .xrefA := by decide
  have hs : Tag.span ≠ .xrefA := by decide
  have hm : Tag.samp ≠ .xrefA := by decide
  have img : Seg b [.opening .a, .void .img, .closing .a] := .element _ ha (.void _)
  have kbd : ∀ n, Seg b (List.replicate n [Tok.opening .kbd, .closing .kbd]).flatten := fun n => (Seg.empty _ hk).replicate n
  have key : Seg b [.opening .kbd, .opening .samp, .closing .samp, .closing .kbd] := .element .kbd hk (xs := [_, _]) (.empty _ hm)
  cases l with
  | text t => exact .text t
  | specialChar c => exact .text _
  | newline => exact .gen _
  | curlyQuote => exact .gen _
  | whitespace => exact .gen _
  | symbol => exact .gen _
  | dashes => exact .gen _
  | calloutTuck => exact .gen _
  | image link self =>
    cases link
    · exact .void _
    · exact img
  | button => exact key
  | keyboard n =>
    simp only [leafToks]
    split
    · rw [List.append_assoc]; exact .element .kbd hk (kbd n)
    · exact kbd n
  | menu n =>
    simp only [leafToks]
    rw [List.append_assoc]
    refine .element .kbd hk (.append key (Seg.replicate (.append (xs := [.opening .span, .closing .span]) (.empty _ hs) key) _))
  | icon link =>
    have inner : ∀ xs, Seg b xs → Seg b ((if link then [.opening .a] else []) ++ xs ++ (if link then [.closing .a] else [])) := by
      intro xs h
      cases link
      · simpa using h
      · simpa using Seg.element .a ha h
    simp only [leafToks]
    apply inner
    split
    · exact .empty _ hb
    · exact .void _
    · exact .empty _ hi
  | plugin => exact .nil
  | anchor => simp only [leafToks]; split; exact .nil; exact .empty _ ha
  | biblioAnchor => exact .append (xs := [.opening .a, .closing .a]) (.empty _ ha) (.gen _)
  | linebreak => exact .void _
  | callout => exact .empty _ hb

theorem visitLeaf_writes {l : Leaf} {s s' : State} (h : visitCall (.leaf l) s = some s') : Writes s s' := by
  have key : ∀ l, Writes s (s.push (leafToks s.cur l)) := fun l => .push s (leafToks_seg _ _ l)
  have pushed : ∀ {l}, some (s.push (leafToks s.cur l)) = some s' → Writes s s' := by
    intro l h; cases h; exact key l
  cases l
  case image link self =>
    cases self
    · exact pushed h
    · change (if s.cur.alt = [] then some (s.push (leafToks s.cur (.image true true))) else none) = some s' at h
      split at h
      · exact pushed h
      · cases h
  case menu n =>
    change (if 1 ≤ n then some (s.push (leafToks s.cur (.menu n))) else none) = some s' at h
    split at h
    · exact pushed h
    · cases h
  all_goals exact pushed h

theorem run_I {evs : List Ev} (h : I evs) : ∀ s s', run evs s = some s' → Writes s s' := by
  induction h with
  | nil => intro s s' h; cases h; exact .refl s
  | leaf l => intro s s' h; rw [run_one] at h; exact visitLeaf_writes h
  | missing t => intro s s' h; rw [run_one] at h; simp only [step, visitCall] at h; cases h; exact .push s (.gen t)
  | bound => intro s s' h; cases h
  | vterm => intro s s' h; cases h; exact .refl s
  | append _ _ ih1 ih2 =>
    intro s s' h
    obtain ⟨t, h1, h2⟩ := run_append_some h
    exact (ih1 _ _ h1).trans (ih2 _ _ h2)
  | @around c hc a _ ih =>
    intro s s' h
    obtain ⟨t, u, h1, h2, h3⟩ := run_around h
    have hw := ih _ _ h2
    cases c <;> try (exact Bool.noConfusion hc)
    case wrap k =>
      simp only [enter, exit, Html.enter, Html.exit] at h1 h3
      cases hk : wrapTag k with
      | none => rw [hk] at h1 h3; cases h1; cases h3; exact hw
      | some g =>
        rw [hk] at h1 h3; cases h1; cases h3
        exact .element g (by cases k <;> simp_all [wrapTag] <;> (subst hk; decide)) hw
    case footnote id =>
      simp only [enter, State.startBuffering] at h1
      -- the state before buffering
      have key : ∀ s0 : State, Writes s s0 → (if s0.cur.alt = [] then some s0.swap else none) = some t → Writes s s' := by
        intro s0 hs0 h1
        split at h1
        case isFalse => cases h1
        case isTrue halt =>
          cases h1
          obtain ⟨seg, fs, rfl, hseg, hfs⟩ := hw
          refine hs0.trans ?_
          simp only [exit] at h3
          cases hp : prevFootnote id (s0.swap.ext seg fs).footnotes 1 with
          | some n =>
            rw [hp] at h3; cases h3
            refine ⟨[], fs, ?_, .nil, hfs⟩
            simp [State.ext, State.swap, State.swapTake, halt]
          | none =>
            rw [hp] at h3; cases h3
            refine ⟨[.opening .a, .footnote ((s0.footnotes ++ fs).length + 1), .closing .a],
              fs ++ [(id, seg)], ?_, .element .a (by decide) (.footnote _), ?_⟩
            · simp [State.ext, State.swap, State.swapTake, State.push, Frame.push, halt]
            · intro f hf
              rcases List.mem_append.1 hf with h | h
              · exact hfs f h
              · simp only [List.mem_singleton] at h; subst h; exact hseg.weaken
      cases hp : prevFootnote id s.footnotes 1 with
      | none => rw [hp] at h1; exact key s (.refl s) h1
      | some n =>
        rw [hp] at h1
        exact key _ (.push s (.element .a (by decide) (.footnoteRef n))) h1
    case link ix ht =>
      simp only [enter, exit, Html.enter, Html.exit] at h1 h3
      cases h1; cases h3
      by_cases hc : (!ix && !s.cur.inToc) = true
      · have : (!ix && !u.cur.inToc) = true := by
          obtain ⟨seg, fs, rfl, -, -⟩ := hw
          rw [← hc]; simp only [pushIf_ext, State.ext]
        rw [State.pushIf, if_pos this]
        rw [State.pushIf, if_pos hc] at hw
        exact .element .a (by decide) hw
      · have : ¬ (!ix && !u.cur.inToc) = true := by
          obtain ⟨seg, fs, rfl, -, -⟩ := hw
          simpa only [pushIf_ext, State.ext] using hc
        rw [State.pushIf, if_neg this]
        rw [State.pushIf, if_neg hc] at hw
        exact hw
    case mailto ht =>
      simp only [enter, exit, Html.enter, Html.exit] at h1 h3
      cases h1; cases h3
      exact .element .a (by decide) hw
    case xref t' =>
      simp only [enter, exit, Html.enter, Html.exit] at h1 h3
      cases h1
      obtain ⟨seg, fs, rfl, hseg, hfs⟩ := hw
      simp only [pushIf_ext, ext_ext] at h3 hseg
      simp only [State.ext] at h3
      cases h3
      simp only [State.ext] at hseg
      cases hd : s.cur.xrefDepth with
      | zero =>
        refine ⟨.opening .xrefA :: (seg ++ [.closing .xrefA]), fs, ?_, ?_, hfs⟩
        · simp [State.ext, hd]
        · rw [hd]; exact .xref hseg
      | succ d =>
        refine ⟨seg, fs, ?_, ?_, hfs⟩
        · simp [State.ext, hd]
        · rw [hd]; exact hseg
    case xrefText bib =>
      simp only [enter, exit, Html.enter, Html.exit] at h1 h3
      cases h1; cases h3
      cases bib with
      | false => exact hw
      | true =>
        exact (Writes.push s (.gen _)).trans (hw.trans (.push u (.gen _)))
    all_goals
      simp only [enter, exit, Html.enter, Html.exit] at h1 h3
      cases h1; cases h3; exact hw


end Verif.Html5s

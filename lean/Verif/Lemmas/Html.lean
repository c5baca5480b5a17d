import Verif.Spec.Html
import Verif.Lemmas.EvalInd
/-! Lemmas about the HTML backend: what inline traces write. -/
set_option linter.unusedSectionVars false
set_option linter.unusedVariables false
namespace Verif.Html
open Verif.Ast Verif.Eval Verif.Spec.Html

theorem run_append (a b : List Ev) (s : State) : run (a ++ b) s = (run a s).bind (run b) := by
  induction a generalizing s with
  | nil => rfl
  | cons e a ih =>
    simp only [List.cons_append, run]
    cases step e s with
    | none => rfl
    | some t => exact ih t

theorem run_one (e : Ev) (s : State) : run [e] s = step e s := by
  simp only [run]; cases step e s <;> rfl

theorem run_append_some {a b : List Ev} {s s' : State} (h : run (a ++ b) s = some s') :
    ∃ t, run a s = some t ∧ run b t = some s' := by
  rw [run_append] at h
  cases ha : run a s with
  | none => rw [ha] at h; cases h
  | some t => rw [ha] at h; exact ⟨t, rfl, h⟩

theorem run_around {c : Call} {a : List Ev} {s s' : State} (h : run (around c a) s = some s') :
    ∃ t u, enter c s = some t ∧ run a t = some u ∧ exit c u = some s' := by
  obtain ⟨t, h1, h2⟩ := run_append_some (a := [.enter c]) h
  obtain ⟨u, h3, h4⟩ := run_append_some h2
  exact ⟨t, u, by rw [← h1, run_one]; rfl, h3, by rw [← h4, run_one]; rfl⟩

/-- output added to the main buffer, and footnotes -/
def State.ext (s : State) (seg : List Tok) (fs : List (Option Text × List Tok)) : State :=
  { s with cur := { s.cur with html := s.cur.html ++ seg }, footnotes := s.footnotes ++ fs }

theorem ext_nil (s : State) : s.ext [] [] = s := by simp [State.ext]
theorem push_ext (s : State) (ts : List Tok) : s.push ts = s.ext ts [] := by simp [State.ext, State.push, Frame.push]
theorem pushIf_ext (s : State) (c : Bool) (ts : List Tok) : s.pushIf c ts = s.ext (if c then ts else []) [] := by
  cases c <;> simp [State.pushIf, push_ext, ext_nil]
theorem ext_ext (s : State) (a b : List Tok) (f g : List (Option Text × List Tok)) : (s.ext a f).ext b g = s.ext (a ++ b) (f ++ g) := by
  simp [State.ext]

/-- What inline nodes write; `true` if inside the link of a cross reference. -/
inductive Seg : Bool → List Tok → Prop
  | nil {b} : Seg b []
  | void {b} (t : Tag) : Seg b [.void t]
  | text {b} (t : Text) : Seg b [.text t]
  | gen {b} (t : Text) : Seg b [.gen t]
  | footnote {b} (n : Nat) : Seg b [.footnote n]
  | footnoteRef {b} (n : Nat) : Seg b [.footnoteRef n]
  | element {b} (t : Tag) (ht : t ≠ .xrefA) {xs : List Tok} : Seg b xs → Seg b (.opening t :: (xs ++ [.closing t]))
  | xref {xs : List Tok} : Seg true xs → Seg false (.opening .xrefA :: (xs ++ [.closing .xrefA]))
  | append {b} {xs ys : List Tok} : Seg b xs → Seg b ys → Seg b (xs ++ ys)

theorem Seg.weaken {b : Bool} {xs : List Tok} (h : Seg b xs) : Seg false xs := by
  induction h with
  | nil => exact .nil
  | void t => exact .void t
  | text t => exact .text t
  | gen t => exact .gen t
  | footnote n => exact .footnote n
  | footnoteRef n => exact .footnoteRef n
  | element t ht _ ih => exact .element t ht ih
  | xref h _ => exact .xref h
  | append _ _ ih1 ih2 => exact .append ih1 ih2

theorem Seg.empty {b : Bool} (t : Tag) (ht : t ≠ .xrefA) : Seg b [.opening t, .closing t] := .element t ht .nil

theorem Seg.replicate {b : Bool} {xs : List Tok} (h : Seg b xs) (n : Nat) : Seg b (List.replicate n xs).flatten := by
  induction n with
  | zero => exact .nil
  | succ n ih => rw [List.replicate_succ, List.flatten_cons]; exact .append h ih

theorem Seg.cons {b : Bool} {x : Tok} {xs : List Tok} (h1 : Seg b [x]) (h2 : Seg b xs) : Seg b (x :: xs) := .append h1 h2

theorem leafToks_seg (s : Frame) (b : Bool) (l : Leaf) : Seg b (leafToks s l) := by
  have ha : Tag.a ≠ .xrefA := by decide
  have hb : Tag.b ≠ .xrefA := by decide
  have hi : Tag.i ≠ .xrefA := by decide
  have hk : Tag.kbd ≠ .xrefA := by decide
  have hs : Tag.span ≠ .xrefA := by decide
  have img : Seg b [.opening .a, .void .img, .closing .a] := .element _ ha (.void _)
  have kbd : ∀ n, Seg b (List.replicate n [Tok.opening .kbd, .closing .kbd]).flatten := fun n => (Seg.empty _ hk).replicate n
  cases l with
  | text t => exact .text t
  | specialChar c => exact .text _
  | newline => exact .gen _
  | curlyQuote => exact .gen _
  | whitespace => exact .gen _
  | symbol => exact .gen _
  | dashes => exact .gen _
  | image link self =>
    cases link
    · exact .element .span hs (.void _)
    · exact .element .span hs img
  | button => exact .empty _ hb
  | keyboard n =>
    simp only [leafToks]
    split
    · rw [List.append_assoc]; exact .element .span hs (kbd n)
    · exact kbd n
  | menu n =>
    simp only [leafToks]
    rw [List.append_assoc]; exact .element .span hs ((Seg.empty _ hb).replicate n)
  | icon link =>
    have inner : ∀ xs, Seg b xs → Seg b ([.opening .span] ++ (if link then [.opening .a] else []) ++ xs ++
        (if link then [.closing .a] else []) ++ [.closing .span]) := by
      intro xs h
      cases link
      · simpa using Seg.element .span hs h
      · simpa using Seg.element .span hs (Seg.element .a ha h)
    simp only [leafToks]
    apply inner
    split
    · exact .gen _
    · exact .void _
    · exact .empty _ hi
  | plugin => exact .nil
  | anchor => simp only [leafToks]; split; exact .nil; exact .empty _ ha
  | biblioAnchor => exact .append (xs := [.opening .a, .closing .a]) (.empty _ ha) (.gen _)
  | linebreak => exact .void _
  | callout =>
    simp only [leafToks]; split
    · exact .empty _ hb
    · exact .void _
    · exact .append (xs := [.opening .i, .closing .i]) (.empty _ hi) (.empty _ hb)
  | calloutTuck => simp only [leafToks]; split; exact .nil; exact .gen _

/-- what an inline trace does to the state -/
def Writes (s s' : State) : Prop :=
  ∃ seg fs, s' = s.ext seg fs ∧ Seg (s.cur.xrefDepth != 0) seg ∧ ∀ f ∈ fs, Seg false f.2

theorem Writes.refl (s : State) : Writes s s := ⟨[], [], (ext_nil s).symm, .nil, by simp⟩
theorem Writes.push (s : State) {ts : List Tok} (h : Seg (s.cur.xrefDepth != 0) ts) : Writes s (s.push ts) :=
  ⟨ts, [], push_ext s ts, h, by simp⟩
theorem Writes.trans {s t u : State} (h1 : Writes s t) (h2 : Writes t u) : Writes s u := by
  obtain ⟨a, f, rfl, ha, hf⟩ := h1
  obtain ⟨b, g, rfl, hb, hg⟩ := h2
  exact ⟨a ++ b, f ++ g, ext_ext .., .append ha hb, by
    intro x hx; rcases List.mem_append.1 hx with h | h; exact hf x h; exact hg x h⟩

theorem visitLeaf_writes {l : Leaf} {s s' : State} (h : visitCall (.leaf l) s = some s') : Writes s s' := by
  have key : ∀ l, Writes s (s.push (leafToks s.cur l)) := fun l => .push s (leafToks_seg _ _ l)
  have pushed : ∀ {l}, some (s.push (leafToks s.cur l)) = some s' → Writes s s' := by
    intro l h; cases h; exact key l
  cases l
  case image link self =>
    cases self
    · exact pushed h
    · change (if s.cur.alt = [] then some (s.push (leafToks s.cur (.image true true))) else none) = some s' at h
      split at h
      · exact pushed h
      · cases h
  case menu n =>
    change (if 2 ≤ n then some (s.push (leafToks s.cur (.menu n))) else none) = some s' at h
    split at h
    · exact pushed h
    · cases h
  all_goals exact pushed h

/-- an element written around an inline trace -/
theorem Writes.element {s u : State} (t : Tag) (ht : t ≠ .xrefA) (h : Writes (s.push [.opening t]) u) :
    Writes s (u.push [.closing t]) := by
  obtain ⟨seg, fs, rfl, hseg, hfs⟩ := h
  have hseg : Seg (s.cur.xrefDepth != 0) seg := hseg
  refine ⟨.opening t :: (seg ++ [.closing t]), fs, ?_, .element t ht hseg, hfs⟩
  simp [push_ext, ext_ext]

theorem run_I {evs : List Ev} (h : I evs) : ∀ s s', run evs s = some s' → Writes s s' := by
  induction h with
  | nil => intro s s' h; cases h; exact .refl s
  | leaf l => intro s s' h; rw [run_one] at h; exact visitLeaf_writes h
  | missing t => intro s s' h; rw [run_one] at h; simp only [step, visitCall] at h; cases h; exact .push s (.gen t)
  | bound => intro s s' h; cases h
  | vterm => intro s s' h; cases h; exact .refl s
  | append _ _ ih1 ih2 =>
    intro s s' h
    obtain ⟨t, h1, h2⟩ := run_append_some h
    exact (ih1 _ _ h1).trans (ih2 _ _ h2)
  | @around c hc a _ ih =>
    intro s s' h
    obtain ⟨t, u, h1, h2, h3⟩ := run_around h
    have hw := ih _ _ h2
    cases c <;> try (exact Bool.noConfusion hc)
    case wrap k =>
      simp only [enter, exit] at h1 h3
      cases hk : wrapTag k with
      | none => rw [hk] at h1 h3; cases h1; cases h3; exact hw
      | some g =>
        rw [hk] at h1 h3; cases h1; cases h3
        exact .element g (by cases k <;> simp_all [wrapTag] <;> (subst hk; decide)) hw
    case footnote id =>
      simp only [enter, State.startBuffering] at h1
      -- the state before buffering
      have key : ∀ s0 : State, Writes s s0 → (if s0.cur.alt = [] then some s0.swap else none) = some t → Writes s s' := by
        intro s0 hs0 h1
        split at h1
        case isFalse => cases h1
        case isTrue halt =>
          cases h1
          obtain ⟨seg, fs, rfl, hseg, hfs⟩ := hw
          refine hs0.trans ?_
          simp only [exit] at h3
          cases hp : prevFootnote id (s0.swap.ext seg fs).footnotes 1 with
          | some n =>
            rw [hp] at h3; cases h3
            refine ⟨[], fs, ?_, .nil, hfs⟩
            simp [State.ext, State.swap, State.swapTake, halt]
          | none =>
            rw [hp] at h3; cases h3
            refine ⟨[.opening .sup, .opening .a, .footnote ((s0.footnotes ++ fs).length + 1), .closing .a, .closing .sup],
              fs ++ [(id, seg)], ?_, .element .sup (by decide) (xs := [.opening .a, _, .closing .a]) (.element .a (by decide) (.footnote _)), ?_⟩
            · simp [State.ext, State.swap, State.swapTake, State.push, Frame.push, halt]
            · intro f hf
              rcases List.mem_append.1 hf with h | h
              · exact hfs f h
              · simp only [List.mem_singleton] at h; subst h; exact hseg.weaken
      cases hp : prevFootnote id s.footnotes 1 with
      | none => rw [hp] at h1; exact key s (.refl s) h1
      | some n =>
        rw [hp] at h1
        exact key _ (.push s (.element .sup (by decide) (xs := [.opening .a, _, .closing .a]) (.element .a (by decide) (.footnoteRef n)))) h1
    case link ix ht =>
      simp only [enter, exit] at h1 h3
      cases h1; cases h3
      by_cases hc : (!ix && !s.cur.inToc) = true
      · have : (!ix && !u.cur.inToc) = true := by
          obtain ⟨seg, fs, rfl, -, -⟩ := hw
          rw [← hc]; simp only [pushIf_ext, State.ext]
        rw [State.pushIf, if_pos this]
        rw [State.pushIf, if_pos hc] at hw
        exact .element .a (by decide) hw
      · have : ¬ (!ix && !u.cur.inToc) = true := by
          obtain ⟨seg, fs, rfl, -, -⟩ := hw
          simpa only [pushIf_ext, State.ext] using hc
        rw [State.pushIf, if_neg this]
        rw [State.pushIf, if_neg hc] at hw
        exact hw
    case mailto ht =>
      simp only [enter, exit] at h1 h3
      cases h1; cases h3
      exact .element .a (by decide) hw
    case xref t' =>
      simp only [enter, exit] at h1 h3
      cases h1
      obtain ⟨seg, fs, rfl, hseg, hfs⟩ := hw
      simp only [pushIf_ext, ext_ext] at h3 hseg
      simp only [State.ext] at h3
      cases h3
      simp only [State.ext] at hseg
      cases hd : s.cur.xrefDepth with
      | zero =>
        refine ⟨.opening .xrefA :: (seg ++ [.closing .xrefA]), fs, ?_, ?_, hfs⟩
        · simp [State.ext, hd]
        · rw [hd]; exact .xref hseg
      | succ d =>
        refine ⟨seg, fs, ?_, ?_, hfs⟩
        · simp [State.ext, hd]
        · rw [hd]; exact hseg
    case xrefText bib =>
      simp only [enter, exit] at h1 h3
      cases h1; cases h3
      cases bib with
      | false => exact hw
      | true =>
        exact (Writes.push s (.gen _)).trans (hw.trans (.push u (.gen _)))
    all_goals
      simp only [enter, exit] at h1 h3
      cases h1; cases h3; exact hw

end Verif.Html

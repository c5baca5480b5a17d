import Verif.Spec.BlockSubs
import Verif.Props.Subs
/-! Property C117: the substitutions of a block are its own. -/
namespace Verif.Props
open Verif Verif.BlockSubs

/-- C117: the substitutions in force after a document, or a part of one, are those that were in force before it, whatever blocks it has. -/
theorem C117_restored (s s' : Substitutions) (d : Doc) (out : List (Nat × Substitutions)) (h : walk s d = some (s', out)) : s' = s := by
  induction d generalizing s s' out with
  | done => cases h; rfl
  | text n rest ih =>
    simp only [walk, Option.bind_eq_bind, Option.bind_eq_some_iff] at h
    obtain ⟨⟨u, o⟩, h1, h⟩ := h
    cases h
    exact ih _ _ _ h1
  | para c a n rest ih =>
    simp only [walk, Option.bind_eq_bind, Option.bind_eq_some_iff] at h
    obtain ⟨t, _, ⟨u, o⟩, h1, h⟩ := h
    cases h
    exact ih _ _ _ h1
  | delimited c a n inside rest _ ih =>
    simp only [walk, Option.bind_eq_bind, Option.bind_eq_some_iff] at h
    obtain ⟨t, _, here, _, ⟨u, o⟩, h1, h⟩ := h
    cases h
    exact ih _ _ _ h1
  | group inside rest ih1 ih2 =>
    simp only [walk, Option.bind_eq_bind, Option.bind_eq_some_iff] at h
    obtain ⟨⟨u, o⟩, h1, ⟨u', o'⟩, h2, h⟩ := h
    cases h
    rw [ih2 _ _ _ h2, ih1 _ _ _ h1]
  | cell l n rest ih =>
    simp only [walk, Option.bind_eq_bind, Option.bind_eq_some_iff] at h
    obtain ⟨⟨u, o⟩, h1, h⟩ := h
    cases h
    exact ih _ _ _ h1
  | document inside rest _ ih =>
    simp only [walk, Option.bind_eq_bind, Option.bind_eq_some_iff] at h
    obtain ⟨⟨_, _⟩, _, ⟨u, o⟩, h1, h⟩ := h
    cases h
    exact ih _ _ _ h1

/-- C117: what is parsed after a block does not depend on that block: two parts of a document one after the other are parsed as each of them alone. -/
theorem C117_siblings (s : Substitutions) (d e : Doc) (out out' : List (Nat × Substitutions)) (h : walk s d = some (s, out)) (h' : walk s e = some (s, out')) :
    walk s (d.then e) = some (s, out ++ out') := by
  have key : ∀ (d : Doc) out, walk s d = some (s, out) → walk s (d.then e) = some (s, out ++ out') := by
    intro d
    induction d with
    | done => intro out h; cases h; exact h'
    | text n rest ih =>
      intro out h
      simp only [walk, Option.bind_eq_bind, Option.bind_eq_some_iff] at h
      obtain ⟨⟨u, o⟩, h1, h⟩ := h
      cases h
      simp [Doc.then, walk, ih _ h1]
    | para c a n rest ih =>
      intro out h
      simp only [walk, Option.bind_eq_bind, Option.bind_eq_some_iff] at h
      obtain ⟨t, h0, ⟨u, o⟩, h1, h⟩ := h
      cases h
      simp [Doc.then, walk, h0, ih _ h1]
    | delimited c a n inside rest _ ih =>
      intro out h
      simp only [walk, Option.bind_eq_bind, Option.bind_eq_some_iff] at h
      obtain ⟨t, h0, here, h2, ⟨u, o⟩, h1, h⟩ := h
      cases h
      simp only [Doc.then, walk, h0, h2, ih _ h1, Option.bind_eq_bind, Option.bind_some, List.append_assoc]
    | group inside rest ih1 ih2 =>
      intro out h
      simp only [walk, Option.bind_eq_bind, Option.bind_eq_some_iff] at h
      obtain ⟨⟨u, o⟩, h1, ⟨u', o'⟩, h2, h⟩ := h
      cases h
      obtain rfl := C117_restored _ _ _ _ h1
      simp [Doc.then, walk, h1, ih2 _ h2]
    | cell l n rest ih =>
      intro out h
      simp only [walk, Option.bind_eq_bind, Option.bind_eq_some_iff] at h
      obtain ⟨⟨u, o⟩, h1, h⟩ := h
      cases h
      simp [Doc.then, walk, ih _ h1]
    | document inside rest _ ih =>
      intro out h
      simp only [walk, Option.bind_eq_bind, Option.bind_eq_some_iff] at h
      obtain ⟨⟨u0, o0⟩, h0, ⟨u, o⟩, h1, h⟩ := h
      cases h
      simp [Doc.then, walk, h0, ih _ h1]
  exact key d out h

/-- the `subs` attribute never panics on the usual substitutions of a block -/
theorem asked_some (o : Owner) : ∃ s, asked o = some s := by
  have key : ∀ (u : Substitutions) (v : Option (List Char)), u ∈ [Substitutions.normal, .attrValue, .verbatim, .onlySpecialChars, .all, .none] → ∃ s, fromMeta u v = some s := by
    intro u v hu
    cases v with
    | none => exact ⟨u, rfl⟩
    | some v =>
      obtain ⟨s, hs, _⟩ := C25_subs_attribute_membership (v.any fun c => c = '-' ∨ c = '+') (Split.splitOn ',' v) u hu
      exact ⟨s, hs⟩
  cases o with
  | none => exact ⟨_, rfl⟩
  | cell l => exact ⟨_, rfl⟩
  | block c a =>
    refine key _ _ ?_
    cases c <;> simp [usual]
    cases a.source <;> simp

theorem set_asked (c : Context) (a : Attrs) : setSubsFor .normal c a = asked (.block c a) := by
  cases c <;> simp [setSubsFor, asked, usual]

/-- C117: if only blocks with text have a `subs` attribute, every text of a document is parsed with the substitutions it asks for: those of the
kind of its block or cell, changed by the `subs` attribute of that block, and nothing else. All texts are parsed, in order, and there is no panic.
Partial: blocks with blocks inside them must not have a `subs` attribute of their own, which is where the property fails. -/
theorem C117_own_partial (d : Doc) (h : d.leafSubs) :
    ∃ out, walk .normal d = some (.normal, out) ∧ out.map (fun p => (p.1, some p.2)) = d.texts.map (fun p => (p.1, asked p.2)) := by
  induction d with
  | done => exact ⟨[], rfl, rfl⟩
  | text n rest ih =>
    obtain ⟨o, h1, h2⟩ := ih h
    refine ⟨_, by simp [walk, h1, Option.bind_eq_bind, Option.bind_some]; rfl, by simp [Doc.texts, h2, asked, usual]⟩
  | para c a n rest ih =>
    obtain ⟨o, h1, h2⟩ := ih h
    obtain ⟨t, ht⟩ := asked_some (.block c a)
    refine ⟨_, by simp [walk, set_asked, ht, h1, Option.bind_eq_bind, Option.bind_some]; rfl, by simp [Doc.texts, h2, ht]⟩
  | delimited c a n inside rest ih1 ih2 =>
    obtain ⟨o, h1, h2⟩ := ih2 h.2
    obtain ⟨t, ht⟩ := asked_some (.block c a)
    have other : ∀ c, c ∉ [Context.listing, .literal, .passthrough, .verse, .comment] → a.subs = none → ¬ (c = .paragraph ∧ a.source = true) → asked (.block c a) = some .normal := by
      intro c hc hs hp
      cases c <;> simp at hc <;> simp [asked, usual, fromMeta, hs]
      intro ha
      exact absurd ⟨rfl, ha⟩ hp
    cases c with
    | passthrough => refine ⟨_, by simp [walk, set_asked, ht, h1, Option.bind_eq_bind, Option.bind_some]; rfl, by simp [Doc.texts, h2, ht]⟩
    | listing => refine ⟨_, by simp [walk, set_asked, ht, h1, Option.bind_eq_bind, Option.bind_some]; rfl, by simp [Doc.texts, h2, ht]⟩
    | literal => refine ⟨_, by simp [walk, set_asked, ht, h1, Option.bind_eq_bind, Option.bind_some]; rfl, by simp [Doc.texts, h2, ht]⟩
    | verse => refine ⟨_, by simp [walk, set_asked, ht, h1, Option.bind_eq_bind, Option.bind_some]; rfl, by simp [Doc.texts, h2, ht]⟩
    | comment => refine ⟨_, by simp [walk, set_asked, ht, h1, Option.bind_eq_bind, Option.bind_some]; rfl, by simp [Doc.texts, h2]⟩
    | paragraph =>
      obtain ⟨a1, a2, a3⟩ := h.1.resolve_left (by simp)
      obtain ⟨o', h3, h4⟩ := ih1 a3
      refine ⟨_, by simp [walk, set_asked, other _ (by simp) a1 a2, h1, h3, Option.bind_eq_bind, Option.bind_some]; rfl, by simp [Doc.texts, h2, h4]⟩
    | other =>
      obtain ⟨a1, a2, a3⟩ := h.1.resolve_left (by simp)
      obtain ⟨o', h3, h4⟩ := ih1 a3
      refine ⟨_, by simp [walk, set_asked, other _ (by simp) a1 a2, h1, h3, Option.bind_eq_bind, Option.bind_some]; rfl, by simp [Doc.texts, h2, h4]⟩
  | group inside rest ih1 ih2 =>
    obtain ⟨o, h1, h2⟩ := ih1 h.1
    obtain ⟨o', h3, h4⟩ := ih2 h.2
    refine ⟨_, by simp [walk, h1, h3, Option.bind_eq_bind, Option.bind_some]; rfl, by simp [Doc.texts, h2, h4]⟩
  | cell l n rest ih =>
    obtain ⟨o, h1, h2⟩ := ih h
    refine ⟨_, by simp [walk, h1, Option.bind_eq_bind, Option.bind_some]; rfl, by cases l <;> simp [Doc.texts, h2, asked, usual, cellSubs]⟩
  | document inside rest ih1 ih2 =>
    obtain ⟨o, h1, h2⟩ := ih1 h.1
    obtain ⟨o', h3, h4⟩ := ih2 h.2
    refine ⟨_, by simp [walk, h1, h3, Option.bind_eq_bind, Option.bind_some]; rfl, by simp [Doc.texts, h2, h4]⟩

/-- a listing with `subs=+attributes`, a paragraph, an example with a passthrough block and a paragraph in it, and a literal cell -/
def subsDoc : Doc :=
  .delimited .listing { subs := some "+attributes".toList } 1 .done (.para .paragraph {} 2
    (.delimited .other {} 0 (.delimited .passthrough {} 3 .done (.para .paragraph { source := true } 4 .done)) (.cell true 5 (.text 6 .done))))

example : subsDoc.leafSubs ∧ (walk .normal subsDoc).map (·.2.map fun p => (p.1, p.2.list)) =
    some [(1, [.specialChars, .callouts, .attrRefs]), (2, Substitutions.normal.list), (3, []), (4, Substitutions.verbatim.list), (5, Substitutions.verbatim.list), (6, Substitutions.normal.list)] := by
  refine ⟨by simp [subsDoc, Doc.leafSubs], by decide +kernel⟩

/-- C117 fails for blocks with blocks inside them: their `subs` attribute is in force for the paragraphs inside, which did not ask for it. -/
theorem C117_inside_violated : walk .normal (.delimited .other { subs := some "none".toList } 0 (.para .paragraph {} 1 .done) .done) = some (.normal, [(1, .none)]) ∧
    asked (.block .paragraph {}) = some .normal ∧ (1, Owner.block .paragraph {}) ∈ (Doc.delimited .other { subs := some "none".toList } 0 (.para .paragraph {} 1 .done) .done).texts := by
  decide +kernel

end Verif.Props

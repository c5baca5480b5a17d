import Verif.Lemmas.TocBook
import Verif.Props.Sections
/-! C32: the table of contents mirrors the sections. -/
namespace Verif.Props
open Verif.Sections Verif.Spec.Sections

private def start (chunks : List (Item × List Item)) (trailing toc : Bool) : St :=
  { rest := chunks, trailing, toc := if toc then some [] else none }

private theorem parseDoc_eq (env : Env) (chunks : List (Item × List Item)) (trailing toc : Bool) :
    parseDoc env chunks trailing toc =
      if env.book = true then parseBook env (size chunks + 2) (size chunks + 2) (start chunks trailing toc)
      else match parseSectioned env (size chunks + 2) (start chunks trailing toc) with
        | .error f => .error f
        | .ok ((pre, secs), st) => .ok (if secs.isEmpty then .blocks pre else .sections pre secs, st) := rfl

/-- **C32** (never fails) without a table of contents, or with one of at most
the default depth 2: parsing the block structure of any source gives a result
or, in strict mode, a diagnostic. -/
theorem C32_default_never_fails_partial (env : Env) (chunks : List (Item × List Item)) (trailing toc : Bool)
    (ht : toc = false ∨ env.toclevels ≤ 2) : parseDoc env chunks trailing toc ≠ .error .panic := by
  have calm : Calm env (start chunks trailing toc) := by
    rcases ht with h | h
    · subst h; exact .inl rfl
    · exact .inr h
  intro h
  rw [parseDoc_eq] at h
  split at h
  · exact book_calm _ _ _ _ rfl rfl calm h
  · split at h
    · rename_i f hf
      injection h with h; subst h
      exact sectioned_calm calm hf
    · cases h

/-- **C32** (what is listed, and in which order): whatever the depth, read in
order the table lists exactly the parts and the sections of at most the
configured depth that skip no level, in the order of the parsed document. -/
theorem C32_order {env : Env} {chunks : List (Item × List Item)} {trailing : Bool} {doc : Doc} {st : St}
    (h : parseDoc env chunks trailing true = .ok (doc, st)) :
    ∃ toc, st.toc = some toc ∧ entries toc = docListed env.toclevels doc := by
  rw [parseDoc_eq] at h
  split at h
  · obtain ⟨ns, h1, h2⟩ := (book_lists _ _ _ _ _ _ rfl rfl h).1 [] rfl
    exact ⟨ns, h1, by simpa [entries] using h2⟩
  · split at h
    · cases h
    · rename_i pre secs s hs
      injection h with h; injection h with h1 h2
      subst h2
      obtain ⟨ns, h2, h3⟩ := (sectioned_lists hs).1 [] rfl
      rw [show (start chunks trailing true).level = 0 from rfl] at h3
      refine ⟨ns, h2, ?_⟩
      subst h1
      split
      · rename_i he
        have : secs = [] := by cases secs <;> simp_all
        subst this
        simpa [docListed, listedAll, entries] using h3
      · simpa [docListed, entries] using h3

/-- **C32** (nesting, never fails) in strict mode, for every depth: an article,
or a book without special sections, either gives a diagnostic or a table of
contents that has exactly the shape of the section tree. -/
theorem C32_mirrors_partial (env : Env) (chunks : List (Item × List Item)) (trailing : Bool) (hst : env.strict = true)
    (hsp : env.book = true → ∀ l t sp d, Item.heading l t sp d ∈ sourceItems chunks → sp = none) :
    (∃ doc st, parseDoc env chunks trailing true = .ok (doc, st) ∧ st.toc = some (docToc env.toclevels doc)) ∨
    ∃ e, parseDoc env chunks trailing true = .error (.diag e) := by
  have key : (∀ doc st, parseDoc env chunks trailing true = .ok (doc, st) → st.toc = some (docToc env.toclevels doc)) ∧
      parseDoc env chunks trailing true ≠ .error .panic := by
    rw [parseDoc_eq]
    split
    · rename_i hb
      obtain ⟨h1, h2⟩ := book_tree hst (size chunks + 2) (size chunks + 2)
        (start chunks trailing true) [] rfl rfl rfl (by simp) (hsp hb)
      exact ⟨fun doc st h => by simpa using h1 doc st h, h2⟩
    · have good : Good env.toclevels [] [] 0 := .inr ⟨1, by omega, trivial, rfl, by simp⟩
      obtain ⟨h1, h2⟩ := sectioned_tree hst (n := size chunks + 2) (s := start chunks trailing true) good rfl rfl
      split
      · rename_i f hf
        refine ⟨fun _ _ h => (by cases h), fun h => ?_⟩
        injection h with h; subst h; exact h2 hf
      · rename_i pre secs s hs
        refine ⟨fun doc st h => ?_, by simp⟩
        injection h with h; injection h with h3 h4
        subst h3; subst h4
        have := (h1 _ _ _ hs).2.1
        rw [this]
        split
        · rename_i he
          have : secs = [] := by cases secs <;> simp_all
          subst this
          simp [docToc, plug]
        · simp [docToc, plug, tocOfAll_append]
  cases hr : parseDoc env chunks trailing true with
  | ok v => exact .inl ⟨v.1, v.2, rfl, key.1 _ _ hr⟩
  | error f =>
    cases f with
    | diag e => exact .inr ⟨e, rfl⟩
    | panic => exact absurd hr key.2
    | diverged => exact absurd hr (C33_terminates _ _ _ _)

/-! ### violations -/

private def h (l t : Nat) : Item := .heading l t none false

/-- **C32 violated**: with `toclevels` 4 and more, a skipped level followed by
deeper sections makes building the table panic. -/
theorem C32_skip_panics_violated :
    parseDoc ⟨false, false, 4⟩ [(h 1 1, []), (h 3 2, []), (h 4 3, [])] false true = .error .panic := rfl

/-- **C32 violated** in strict mode: an appendix of a book written as a part,
with sections two levels deep, panics when `toclevels` is 3 and more. -/
theorem C32_appendix_panics_violated :
    parseDoc ⟨true, true, 3⟩ [(.heading 0 1 (some .preface) false, []), (h 2 2, []), (h 3 3, [])] false true = .error .panic := rfl

/-- **C32 violated** (nesting): a chapter that follows a preface written at the
level of parts is listed inside the preface. -/
theorem C32_preface_nests_violated :
    ∃ doc st, parseDoc ⟨true, true, 2⟩ [(.heading 0 1 (some .preface) false, []), (h 1 2, [])] true true = .ok (doc, st) ∧
      st.toc = some [.node 0 1 [.node 1 2 []]] ∧ docToc 2 doc = [.node 0 1 [], .node 1 2 []] :=
  ⟨_, _, rfl, rfl, rfl⟩

/-! ### the hypotheses are met -/

example : ∃ doc st, parseDoc ⟨true, false, 3⟩
    [(h 1 1, []), (h 2 2, [h 3 3]), (h 4 4, []), (.delim 4, [h 5 5]), (.delim 4, []), (h 2 6, []), (h 1 7, [])] false true = .ok (doc, st) ∧
    st.toc = some [.node 1 1 [.node 2 2 [.node 3 3 []], .node 2 6 []], .node 1 7 []] := ⟨_, _, rfl, rfl⟩

example : ∃ doc st, parseDoc ⟨true, true, 2⟩ [(h 0 1, []), (h 1 2, [h 2 3]), (h 3 4, []), (h 1 5, []), (h 0 6, []), (h 1 7, [])] false true = .ok (doc, st) ∧
    st.toc = some [.node 0 1 [.node 1 2 [.node 2 3 []], .node 1 5 []], .node 0 6 [.node 1 7 []]] := ⟨_, _, rfl, rfl⟩

example : ∃ doc st, parseDoc ⟨false, false, 3⟩ [(h 1 1, []), (h 3 2, []), (h 2 3, [])] false true = .ok (doc, st) ∧
    docListed 3 doc = [(1, 1), (2, 3)] := ⟨_, _, rfl, rfl⟩

end Verif.Props

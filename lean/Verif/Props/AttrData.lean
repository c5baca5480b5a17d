import Verif.Spec.AttrData
import Verif.Props.OpenTag
/-!
# Several attribute lists, and the language of source

**C111**: several attribute lists work as one in which the first lists win; lists without anything in them change nothing.

**C112**: a listing is source in the language that its attributes or the document say.
-/
namespace Verif.Props
open Verif.AttrData Verif.Spec.AttrData Verif.OpenTag Verif.StartTag Verif.Spec.Details Verif.Spec.Escape

/-! ### C111 -/

private theorem first_of {α β : Type} (q : α → Option β) (ls : List α) : FirstOf q ls (ls.findSome? q) := by
  induction ls with
  | nil => exact .inl ⟨rfl, nofun⟩
  | cons l ls ih =>
    rw [List.findSome?_cons]
    cases h : q l with
    | some v => exact .inr ⟨[], l, ls, v, rfl, nofun, h, rfl⟩
    | none =>
      rcases ih with ⟨h1, h2⟩ | ⟨before, x, after, v, rfl, h2, h3, h4⟩
      · refine .inl ⟨h1, ?_⟩
        intro y hy
        rcases List.mem_cons.1 hy with rfl | hy
        · exact h
        · exact h2 y hy
      · refine .inr ⟨l :: before, x, after, v, rfl, ?_, h3, h4⟩
        intro y hy
        rcases List.mem_cons.1 hy with rfl | hy
        · exact h
        · exact h2 y hy

/-- **C111** (one answer): ids, attributes and languages are those of the first list that has them. -/
theorem C111_first (ls : List AList) :
    FirstOf AList.id ls (multi ls).id ∧
    (∀ i, FirstOf (·.strAt i) ls ((multi ls).strAt i)) ∧
    (∀ i, FirstOf (·.positionalAt i) ls ((multi ls).positionalAt i)) ∧
    (∀ k, FirstOf (·.namedStr k) ls ((multi ls).namedStr k)) ∧
    (∀ k, FirstOf (·.namedNodes k) ls ((multi ls).namedNodes k)) ∧
    FirstOf AList.language ls (multi ls).language :=
  ⟨first_of .., fun _ => first_of .., fun _ => first_of .., fun _ => first_of .., fun _ => first_of .., first_of ..⟩

/-- **C111** (all of them): the roles of all lists are there, in their order, and the options of all lists, and all positional attributes. -/
theorem C111_all (ls : List AList) :
    (∀ r, r ∈ (multi ls).roles ↔ r ≠ [] ∧ ∃ l ∈ ls, r ∈ l.roles) ∧
    (∀ a b : List AList, (multi (a ++ b)).roles = (multi a).roles ++ (multi b).roles) ∧
    (∀ r, (multi ls).hasRole r = true ↔ ∃ l ∈ ls, r ∈ l.roles) ∧
    (∀ o, (multi ls).hasOption o = true ↔ ∃ l ∈ ls, o ∈ l.options) ∧
    (∀ s, (multi ls).hasStr s = true ↔ ∃ l ∈ ls, some (.text s) ∈ l.positional) ∧
    ((multi ls).empty = true ↔ ∀ l ∈ ls, l = {}) := by
  refine ⟨?_, ?_, ?_, ?_, ?_, ?_⟩
  · intro r
    simp only [multi, multiRoles, List.mem_flatMap, AList.shownRoles, List.mem_filter, decide_eq_true_eq]
    constructor
    · rintro ⟨l, hl, hr, hn⟩; exact ⟨hn, l, hl, hr⟩
    · rintro ⟨hn, l, hl, hr⟩; exact ⟨l, hl, hr, hn⟩
  · intro a b
    simp [multi, multiRoles]
  · intro r
    simp [multi, multiHasRole, AList.hasRole]
  · intro r
    simp [multi, multiHasOption, AList.hasOption]
  · intro s
    simp only [multi, multiHasStr, List.any_eq_true, AList.hasStr, List.mem_range, AList.strAt, AList.positionalAt, beq_iff_eq]
    constructor
    · rintro ⟨l, hl, i, hi, h⟩
      refine ⟨l, hl, ?_⟩
      rw [List.getElem?_eq_getElem hi] at h
      cases hp : l.positional[i] with
      | none => rw [hp] at h; cases h
      | some v =>
        rw [hp] at h
        cases v with
        | nodes n => cases h
        | text t =>
          have : t = s := Option.some.inj h
          rw [← this, ← hp]
          exact List.getElem_mem hi
    · rintro ⟨l, hl, h⟩
      obtain ⟨i, hi, e⟩ := List.getElem_of_mem h
      refine ⟨l, hl, i, hi, ?_⟩
      rw [List.getElem?_eq_getElem hi, e]
      rfl
  · simp only [multi, multiEmpty, Bool.or_eq_true, List.isEmpty_iff, List.all_eq_true]
    have he : ∀ l : AList, l.isEmpty = true ↔ l = {} := by
      intro l
      obtain ⟨p, n, i, r, o⟩ := l
      simp [AList.isEmpty, and_assoc]
    constructor
    · rintro (rfl | h)
      · nofun
      · exact fun l hl => (he l).1 (h l hl)
    · exact fun h => .inr fun l hl => (he l).2 (h l hl)

private theorem nothing_said : (({} : AList).answers) = noAttrs := by
  have h1 : ({} : AList).strAt = fun _ => none := by funext i; simp [AList.strAt, AList.positionalAt]
  have h2 : ({} : AList).language = none := by unfold AList.language; rw [h1]
  unfold AList.answers noAttrs
  congr

/-- **C111** (priority): a list that goes before others is the first of all of them. -/
theorem C111_priority (a : AList) (ls : List AList) : priority a ls = multi (a :: ls) := by
  have f : ∀ {β : Type} (q : AList → Option β), (q a).or (ls.findSome? q) = (a :: ls).findSome? q := by
    intro β q
    rw [List.findSome?_cons]
    cases q a <;> rfl
  unfold priority multi
  congr 1
  · cases ls <;> simp [multiEmpty]
  · exact f _
  · funext i; exact f (·.strAt i)
  · funext i; exact f (·.positionalAt i)
  · exact f _
  · funext i; exact f (·.namedStr i)
  · funext i; exact f (·.namedNodes i)

private theorem alone (a : AList) : multi [a] = a.answers := by
  have f : ∀ {β : Type} (q : AList → Option β), [a].findSome? q = q a := by
    intro β q
    rw [List.findSome?_cons]
    cases q a <;> rfl
  unfold multi AList.answers
  congr 1
  · simp [multiEmpty]
  · simp [multiRoles]
  · exact f _
  · funext i; exact f (·.strAt i)
  · funext i; exact f (·.positionalAt i)
  · funext i; simp [multiHasOption]
  · funext i; simp [multiHasStr]
  · simp [multiIsSource]
  · exact f _
  · funext i; simp [multiHasRole]
  · funext i; exact f (·.namedStr i)
  · funext i; exact f (·.namedNodes i)

/-- **C111** (lists without anything): they change nothing, wherever they are; nothing but such lists is as no list at all. -/
theorem C111_empty (a b : List AList) : multi (a ++ {} :: b) = multi (a ++ b) ∧ multi [] = noAttrs := by
  refine ⟨?_, rfl⟩
  have f : ∀ {β : Type} (q : AList → Option β), q {} = none → (a ++ {} :: b).findSome? q = (a ++ b).findSome? q := by
    intro β q h
    rw [List.findSome?_append, List.findSome?_append, List.findSome?_cons, h]
  have g : ∀ (q : AList → Bool), q {} = false → (a ++ {} :: b).any q = (a ++ b).any q := by
    intro q h
    simp [h]
  have n := nothing_said
  unfold AList.answers noAttrs at n
  injection n with n1 n2 n3 n4 n5 n6 n7 n8 n9 n10 n11 n12
  unfold multi
  congr 1
  · unfold multiEmpty
    rw [List.all_append, List.all_cons, List.all_append, n1]
    cases a <;> cases b <;> simp
  · simp only [multiRoles, List.flatMap_append, List.flatMap_cons, n2, List.nil_append]
  · exact f _ n3
  · funext i; exact f (·.strAt i) (congrFun n4 i)
  · funext i; exact f (·.positionalAt i) (congrFun n5 i)
  · funext i; exact g (·.hasOption i) (congrFun n6 i)
  · funext i; exact g (·.hasStr i) (congrFun n7 i)
  · exact g _ n8
  · exact f _ n9
  · funext i; exact g (·.hasRole i) (congrFun n10 i)
  · funext i; exact f (·.namedStr i) (congrFun n11 i)
  · funext i; exact f (·.namedNodes i) (congrFun n12 i)

/-- **C111** (one list): a single list is as it is. -/
theorem C111_single (a : AList) : multi [a] = a.answers ∧ priority a [] = a.answers := by
  refine ⟨alone a, ?_⟩
  rw [C111_priority, alone]

/-! ### C112 -/

private theorem marked_iff (a : AList) : (a.id.isNone && a.roles.isEmpty && a.options.isEmpty) = true ↔ ¬ Marked a := by
  unfold Marked
  cases a.id <;> cases a.roles <;> cases a.options <;> simp

/-- **C112** (language), partial: the language of a list is the one that it names.

Missing: `source` with an id, a role or an option, and without a language (`C112_source_violated`). -/
theorem C112_language_partial (a : AList) (h : a.strAt 0 = some "source".toList → a.strAt 1 = none → ¬ Marked a) (lang : Str) :
    a.language = some lang ↔ Language a lang := by
  unfold AList.language Language
  have hne : "source".toList ≠ "listing".toList := by decide
  generalize "source".toList = so at *
  generalize "listing".toList = li at *
  cases h0 : a.strAt 0 with
  | none =>
    cases h1 : a.strAt 1 with
    | none => simp
    | some l => simp
  | some p =>
    simp only
    split
    · rename_i hp
      obtain ⟨rfl, hs⟩ := hp
      cases h1 : a.strAt 1 with
      | none => rw [h1] at hs; cases hs
      | some l =>
        simp only [reduceCtorEq, false_or, true_and]
        constructor
        · exact .inl
        · rintro (h | ⟨_, h2, h3, _⟩)
          · exact h
          · exact absurd (Option.some.inj h2).symm h3
    · rename_i hp
      split
      · rename_i hl
        subst hl
        simp only [reduceCtorEq, false_or, Option.some.injEq, false_iff]
        rintro (⟨h1, _⟩ | ⟨_, h1, _, h2⟩)
        · exact hne h1.symm
        · exact h2 h1.symm
      · rename_i hl
        split
        · rename_i hm
          rw [marked_iff] at hm
          simp only [reduceCtorEq, false_or, Option.some.injEq, false_iff]
          rintro (⟨h1, h2⟩ | ⟨h1, _⟩)
          · exact hp ⟨h1, by rw [h2]; rfl⟩
          · exact hm h1
        · rename_i hm
          have hm : Marked a := Classical.not_not.1 (mt (marked_iff a).2 hm)
          simp only [reduceCtorEq, false_or, Option.some.injEq]
          constructor
          · rintro rfl
            refine .inr ⟨hm, rfl, ?_, hl⟩
            rintro rfl
            cases h1 : a.strAt 1 with
            | none => exact h h0 h1 hm
            | some l => exact hp ⟨rfl, by rw [h1]; rfl⟩
          · rintro (⟨h1, h2⟩ | ⟨_, h1, _⟩)
            · exact absurd ⟨h1, by rw [h2]; rfl⟩ hp
            · exact h1

/-- **C112** (source): a list makes a listing source if it says `source` or has a language. -/
theorem C112_source (a : AList) : a.isSource = true ↔ a.strAt 0 = some "source".toList ∨ a.language ≠ none := by
  unfold AList.isSource
  split
  · rename_i h
    simp only [Bool.or_eq_true, beq_iff_eq] at h
    simp only [true_iff]
    rcases h with h | h
    · exact .inl h
    · exact .inr (by intro e; rw [e] at h; cases h)
  · rename_i h
    simp only [Bool.or_eq_true, beq_iff_eq, not_or] at h
    have hl : a.language = none := by
      cases hl : a.language with
      | none => rfl
      | some v => rw [hl] at h; exact absurd rfl h.2
    have hr : ¬ (a.strAt 0 = some "source".toList ∨ a.language ≠ none) := by
      rintro (h1 | h1)
      · exact h.1 h1
      · exact h1 hl
    simp only [hr, iff_false]
    split
    · simp
    · rename_i hm
      cases h0 : a.strAt 0 with
      | none => simp
      | some p =>
        simp only [bne_iff_ne, ne_eq, Classical.not_not]
        false_or_by_contra
        rename_i hp
        unfold AList.language at hl
        rw [h0] at hl
        simp only at hl
        rw [if_neg (by rintro ⟨rfl, _⟩; exact h.1 h0), if_neg hp, if_neg hm] at hl
        cases hl

/-- what kind of listing it is -/
private def kind (ls : List AList) (doc : Option Str) : Option (Option Str) :=
  if (multi ls).isSource = true ∨ doc ≠ none then some ((multi ls).language.or doc) else none

private theorem pre_says : Says "<pre>".toList "pre" [] := by
  refine says_of (l := []) ?_ ⟨'p', _, rfl, by decide⟩ (by decide) nofun rfl
  rfl

private theorem code_says : Says "<code>".toList "code" [] := by
  refine says_of (l := []) ?_ ⟨'c', _, rfl, by decide⟩ (by decide) nofun rfl
  rfl

private theorem ok_class : "class".toList ≠ [] ∧ ∀ c ∈ "class".toList, nameChar c = true := by decide

private theorem ok_lang : "data-lang".toList ≠ [] ∧ ∀ c ∈ "data-lang".toList, nameChar c = true := by decide

private theorem pre_class {v : Str} (h : Plain v) : Says ("<pre class=\"".toList ++ v ++ "\">".toList) "pre" [("class", v)] := by
  refine says_of (l := [("class".toList, v)]) ?_ ⟨'p', _, rfl, by decide⟩ (by decide) ?_ ?_
  · simp [written]
  · intro p hp
    rw [List.mem_singleton.1 hp]
    exact ⟨ok_class.1, ok_class.2, h.1⟩
  · simp [StartTag.unescape_plain h.2]

private theorem code_two {w v : Str} (hw : Plain w) (hv : Plain v) :
    Says ("<code class=\"".toList ++ w ++ "\" data-lang=\"".toList ++ v ++ "\">".toList) "code" [("class", w), ("data-lang", v)] := by
  refine says_of (l := [("class".toList, w), ("data-lang".toList, v)]) ?_ ⟨'c', _, rfl, by decide⟩ (by decide) ?_ ?_
  · simp [written]
  · intro p hp
    simp only [List.mem_cons, List.not_mem_nil, or_false] at hp
    rcases hp with rfl | rfl
    · exact ⟨ok_class.1, ok_class.2, hw.1⟩
    · exact ⟨ok_lang.1, ok_lang.2, hv.1⟩
  · simp [StartTag.unescape_plain hw.2, StartTag.unescape_plain hv.2]

private theorem code_lang {v : Str} (h : Plain v) : Says ("<code".toList ++ languageAttrs v ++ ['>']) "code"
    [("class", "language-".toList ++ v), ("data-lang", v)] := by
  have hq : '"' ∉ "language-".toList ++ v := by rw [List.mem_append, not_or]; exact ⟨by decide, h.1⟩
  have ha : '&' ∉ "language-".toList ++ v := by rw [List.mem_append, not_or]; exact ⟨by decide, h.2⟩
  have hw : Plain ("language-".toList ++ v) := ⟨hq, ha⟩
  have e : ∀ w : Str, w = "language-".toList ++ v → "<code".toList ++ languageAttrs v ++ ['>'] =
      "<code class=\"".toList ++ w ++ "\" data-lang=\"".toList ++ v ++ "\">".toList := by
    intro w hw
    have e1 : " class=\"language-".toList = " class=\"".toList ++ "language-".toList := by decide
    have e2 : "<code class=\"".toList = "<code".toList ++ " class=\"".toList := by decide
    have e3 : "\">".toList = ['"'] ++ ['>'] := by decide
    unfold languageAttrs
    rw [hw, e1, e2, e3]
    simp only [List.append_assoc]
  rw [e _ rfl]
  generalize "language-".toList ++ v = w at hw
  exact code_two hw h

private theorem listing_shows {highlight tags : Str} {ls : List AList} {doc : Option Str} (hh : Plain highlight)
    (h : ∀ lang, (multi ls).language.or doc = some lang → Plain lang)
    (ht : tags = "<pre".toList ++ (if multiIsSource ls || doc.isSome then " class=\"".toList ++ highlight ++ "\"><code".toList ++
      (match (multiLanguage ls).or doc with | some lang => languageAttrs lang | none => []) else []) ++ ['>']) :
    Shows tags (listingPieces highlight (kind ls doc)) := by
  rw [ht]
  have hk : (multiIsSource ls || doc.isSome) = true ↔ ((multi ls).isSource = true ∨ doc ≠ none) := by
    cases doc <;> simp [multi]
  unfold kind
  split
  · rename_i hs
    rw [if_pos (hk.1 hs)]
    have e : (multi ls).language.or doc = (multiLanguage ls).or doc := rfl
    rw [e] at h ⊢
    cases hl : (multiLanguage ls).or doc with
    | none =>
      have := Shows.start (pre_class hh) (Shows.start code_says .nil)
      simpa [listingPieces] using this
    | some lang =>
      have := Shows.start (pre_class hh) (Shows.start (code_lang (h lang hl)) .nil)
      simpa [listingPieces] using this
  · rename_i hs
    rw [if_neg (fun h => hs (hk.2 h))]
    have := Shows.start pre_says .nil
    simpa [listingPieces] using this

/-- **C112** (pages), partial: the tags of a listing say that it is source if its lists or the document do, and its language: that of its lists,
or else that of the document.

Missing: languages with quotes or ampersands, which are written as they are (`C112_quote_violated`). -/
theorem C112_page_partial (ls : List AList) (doc : Option Str) (h : ∀ lang, (multi ls).language.or doc = some lang → Plain lang) :
    Shows (listing ls doc) (listingPieces "highlight".toList
      (if (multi ls).isSource = true ∨ doc ≠ none then some ((multi ls).language.or doc) else none)) := by
  refine listing_shows (by constructor <;> decide) h ?_
  unfold listing
  split
  · have e : " class=\"highlight\"><code".toList = " class=\"".toList ++ "highlight".toList ++ "\"><code".toList := by decide
    rw [e]
    cases multiLanguage ls <;> cases doc <;> rfl
  · rfl

/-- the classes of a listing in the semantic page -/
def highlightOf (ls : List AList) (highlighter : Option Str) : Str :=
  "highlight".toList ++ (if (multi ls).hasOption "nowrap".toList then " nowrap".toList else []) ++
    (if (multi ls).hasOption "numbered".toList ∨ (multi ls).hasOption "linenums".toList ∨ (multi ls).strAt 2 = some "linenums".toList then
      " linenums".toList else []) ++ (match highlighter with | some h => ' ' :: h | none => [])

/-- **C112** (semantic pages), partial: so they do in semantic pages, with the classes for lines that are not wrapped or have numbers, and for
the program that highlights.

Missing: as above. -/
theorem C112_semantic_partial (ls : List AList) (doc highlighter : Option Str)
    (h : ∀ lang, (multi ls).language.or doc = some lang → Plain lang) (hh : ∀ v, highlighter = some v → Plain v) :
    Shows (listing5 ls doc highlighter) (listingPieces (highlightOf ls highlighter)
      (if (multi ls).isSource = true ∨ doc ≠ none then some ((multi ls).language.or doc) else none)) := by
  have hp : Plain (highlightOf ls highlighter) := by
    unfold highlightOf
    have h1 : ∀ a b : Str, Plain a → Plain b → Plain (a ++ b) := fun a b ha hb =>
      ⟨by rw [List.mem_append, not_or]; exact ⟨ha.1, hb.1⟩, by rw [List.mem_append, not_or]; exact ⟨ha.2, hb.2⟩⟩
    have h2 : Plain [] := ⟨nofun, nofun⟩
    refine h1 _ _ (h1 _ _ (h1 _ _ (by constructor <;> decide) ?_) ?_) ?_
    · split
      · constructor <;> decide
      · exact h2
    · split
      · constructor <;> decide
      · exact h2
    · cases highlighter with
      | none => exact h2
      | some v => exact h1 [' '] v (by constructor <;> decide) (hh v rfl)
  refine listing_shows hp h ?_
  unfold listing5
  split
  · have e : " class=\"highlight".toList = " class=\"".toList ++ "highlight".toList := by decide
    have e2 : "\"><code".toList = "\"><code".toList := rfl
    unfold highlightOf
    rw [e]
    have e3 : (multiHasOption ls "numbered".toList || multiHasOption ls "linenums".toList || multiStrAt ls 2 == some "linenums".toList) = true ↔
        ((multi ls).hasOption "numbered".toList ∨ (multi ls).hasOption "linenums".toList ∨ (multi ls).strAt 2 = some "linenums".toList) := by
      simp [multi, or_assoc]
    simp only [e3]
    simp only [multi, List.append_assoc]
    cases highlighter <;> rfl
  · rfl

/-- **C112 violated**: a source block with a role and without a language gets the language `source`. -/
theorem C112_source_violated :
    listing [{ positional := [some (.text "source".toList)], roles := ["x".toList] }] none =
      "<pre class=\"highlight\"><code class=\"language-source\" data-lang=\"source\">".toList ∧
    listing [{ positional := [some (.text "source".toList)] }] none = "<pre class=\"highlight\"><code>".toList := by decide +kernel

/-- **C112 violated**: a quote in a language ends the attribute. -/
theorem C112_quote_violated :
    listing [{ positional := [some (.text "source".toList), some (.text "a\" onclick=\"b".toList)] }] none =
      "<pre class=\"highlight\"><code class=\"language-a\" onclick=\"b\" data-lang=\"a\" onclick=\"b\">".toList := by decide +kernel

/-! ### the hypotheses are met -/

example : listing [{ id := some "i".toList }, { positional := [some (.text "source".toList), some (.text "rust".toList)] }] (some "c".toList) =
    "<pre class=\"highlight\"><code class=\"language-rust\" data-lang=\"rust\">".toList := by decide +kernel

example : Language { positional := [some (.text "rust".toList)], id := some "i".toList } "rust".toList :=
  .inr ⟨.inl (by simp), rfl, by decide, by decide⟩

example : Plain "rust".toList := ⟨by decide, by decide⟩

example : (multi [{ id := some ['a'], roles := [['r']] }, { id := some ['b'], roles := [['s']] }]).roles = [['r'], ['s']] := by decide

end Verif.Props

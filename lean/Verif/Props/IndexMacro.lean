import Verif.Spec.IndexMacro
import Verif.Props.AttrList
import Verif.Lemmas.UiMacros
/-! Property C120: an index term macro records the terms that are written, and one that cannot be read is kept as text. -/
namespace Verif.Props
open Verif TokenKind AttrList IndexMacro
open Verif.UiMacros.Spec (Blank)
open Verif.Regex (space)

theorem trim_term {i a b : List Char} (ha : Blank a) (hb : Blank b) (h1 : i ≠ []) (h3 : ∀ c ∈ i.head?, space c = false) (h4 : ∀ c ∈ i.getLast?, space c = false) :
    UiMacros.trim (a ++ i ++ b) = i := by
  unfold UiMacros.trim
  rw [List.append_assoc, List.dropWhile_append_of_pos (fun c hc => ha c hc)]
  cases i with
  | nil => exact absurd rfl h1
  | cons x xs =>
    rw [List.cons_append, List.dropWhile_cons, if_neg (by simp [h3 x (by simp)]), ← List.cons_append]
    exact AuthorLine.trimEnd_append hb h4

theorem blank_comma {a : List Char} (h : Blank a) : ',' ∉ a := by
  intro hm
  have := h _ hm
  revert this; decide

theorem terms_split {ts : List (List Char)} {s : List Char} (h : Terms ts s) : (Split.splitOn ',' s).map UiMacros.trim = ts := by
  induction h with
  | last ha hb h1 h2 h3 h4 =>
    rw [Split.splitOn_part _ _ (by simp [blank_comma ha, blank_comma hb, h2]), List.map_singleton, trim_term ha hb h1 h3 h4]
  | cons ha hb h1 h2 h3 h4 _ ih =>
    rw [Split.splitOn_append _ _ _ (by simp [blank_comma ha, blank_comma hb, h2]), List.map_cons, ih, trim_term ha hb h1 h3 h4]

theorem find_none {l : List (List Char × List Tk)} {k : List Char} (h : ∀ p ∈ l, p.1 ≠ k) : l.find? (·.1 = k) = none := by
  simp only [List.find?_eq_none, decide_eq_true_eq]
  exact h

theorem find_first {l l' : List (List Char × List Tk)} {k : List Char} {v : List Tk} (h : ∀ p ∈ l, p.1 ≠ k) :
    (l ++ (k, v) :: l').find? (·.1 = k) = some (k, v) := by
  rw [List.find?_append, find_none h]
  simp

theorem reference_means {single : List Tk → Option (List Char)} {a : Attrs} {r : Ref} (h : Refers single a.named r) : reference single a = r := by
  unfold reference named
  generalize a.named = l at h
  have hne : "see-also".toList ≠ "see".toList := by decide
  cases h with
  | none h => simp only [find_none fun p hp => (h p hp).1, find_none fun p hp => (h p hp).2, Option.bind_none]
  | see h hv hs => simp only [find_first h, Option.bind_some, if_neg hv, hs]
  | @seeAlso l l' v s ts h h' hv hs ht =>
    have h0 : ∀ p ∈ l ++ ("see-also".toList, v) :: l', p.1 ≠ "see".toList := by
      intro p hp
      simp only [List.mem_append, List.mem_cons] at hp
      rcases hp with hp | rfl | hp
      · exact h p (by simp [hp])
      · exact hne
      · exact h p (by simp [hp])
    simp only [find_none h0, find_first h', Option.bind_some, Option.bind_none, if_neg hv, hs, terms_split ht]

theorem fold_terms (a : Attrs) (l : List Spaced) (vs : List (List Tk)) (h : l.map (termOf ·.attr) = vs.map some) :
    l.foldl (fun a x => x.attr.apply a) a = { a with positional := a.positional ++ vs.map some } := by
  induction l generalizing a vs with
  | nil => cases vs with
    | nil => simp
    | cons => cases h
  | cons x l ih =>
    cases vs with
    | nil => cases h
    | cons v vs =>
      simp only [List.map_cons, List.cons.injEq] at h
      rw [List.foldl_cons, ih _ vs h.2]
      have hx := h.1
      cases hxa : x.attr <;> rw [hxa] at hx <;> simp [termOf] at hx <;> subst hx <;> simp [Written.apply]

theorem fold_named (a : Attrs) (l : List Spaced) (ns : List (List Char × List Tk)) (h : l.map (namedOf ·.attr) = ns.map some) :
    l.foldl (fun a x => x.attr.apply a) a = { a with named := a.named ++ ns, positional := a.positional ++ ns.map fun _ => none } := by
  induction l generalizing a ns with
  | nil => cases ns with
    | nil => simp
    | cons => cases h
  | cons x l ih =>
    cases ns with
    | nil => cases h
    | cons v vs =>
      simp only [List.map_cons, List.cons.injEq] at h
      rw [List.foldl_cons, ih _ vs h.2]
      have hx := h.1
      cases hxa : x.attr <;> rw [hxa] at hx <;> simp [namedOf] at hx <;> subst hx <;> simp [Written.apply]

/-- C120 (terms): a macro with a term that is shown (`indexterm2:`) or up to three terms that are not (`indexterm:`), each a word or a quoted text, and named
attributes behind them, records just these terms in their order and the reference that the named attributes ask for; the text behind the macro is left
alone. The terms are what the inline parser gets; markup in a reference (`C120_markup_violated`) is not covered, nor are named attributes before the terms
(`C120_first_violated`). -/
theorem C120_terms_partial {single : List Tk → Option (List Char)} {visible : Bool} {name : List Char} {s : Spaced} {ss refs : List Spaced}
    {terms : List (List Tk)} {attrs : List (List Char × List Tk)} {kind : Kind} {ref : Ref}
    (hok : ∀ x ∈ s :: (ss ++ refs), x.ok = true)
    (ht : (s :: ss).map (termOf ·.attr) = terms.map some) (hr : refs.map (namedOf ·.attr) = attrs.map some)
    (hm : Means visible terms kind) (href : Refers single attrs ref)
    (hl : (writeList s (ss ++ refs)).getLast?.map (·.kind) ≠ some Backslash)
    {o close : Tk} (ho : o.kind = OpenBracket) (hk : close.kind = CloseBracket) (rest : List Tk) :
    indexMacro single visible name (o :: (writeList s (ss ++ refs) ++ close :: rest)) = some (.term kind ref, rest) := by
  have hsh : ∀ x ∈ s :: (ss ++ refs), ∀ st m ms, x.attr ≠ .shorthand st m ms := by
    intro x hx st m ms e
    rw [← List.cons_append, List.mem_append] at hx
    rcases hx with hx | hx
    · have : termOf x.attr ∈ (s :: ss).map (termOf ·.attr) := List.mem_map.mpr ⟨x, hx, rfl⟩
      rw [ht, e] at this
      simp [termOf] at this
    · have : namedOf x.attr ∈ refs.map (namedOf ·.attr) := List.mem_map.mpr ⟨x, hx, rfl⟩
      rw [hr, e] at this
      simp [namedOf] at this
  have hne : writeList s (ss ++ refs) ≠ [] := by
    have hs : s.attr.toks ≠ [] := by
      cases terms with
      | nil => cases ht
      | cons t ts =>
        have : termOf s.attr = some t := (List.cons.inj ht).1
        cases hxa : s.attr <;> rw [hxa] at this <;> simp [termOf] at this <;> simp [Written.toks]
    cases ss ++ refs with
    | nil => simp [writeList, Spaced.toks, hs]
    | cons x xs => simp [writeList]
  have key := C60_macro_list_means_what_is_written s (ss ++ refs) hok hne hsh hl close hk rest
  rw [← List.cons_append, List.foldl_append, fold_terms _ _ _ ht, fold_named _ _ _ hr] at key
  rw [indexMacro, if_neg (by simp [ho]), key]
  simp only [Option.map_some, List.nil_append]
  have h0 : ∀ (p : List (Option (List Tk))) (i : Nat), pos { positional := p ++ attrs.map fun _ => none, named := attrs } i = (p[i]?).join := by
    intro p i
    simp only [pos]
    by_cases hi : i < p.length
    · rw [List.getElem?_append_left hi]
    · rw [List.getElem?_append_right (by omega), List.getElem?_eq_none (l := p) (by omega)]
      rw [List.getElem?_map]
      cases attrs[i - p.length]? <;> rfl
  simp only [h0, reference_means (a := { positional := terms.map some ++ attrs.map fun _ => none, named := attrs }) href]
  cases hm <;> rfl

private def opened : Tk := ⟨OpenBracket, ['[']⟩
private def closed : Tk := ⟨CloseBracket, [']']⟩
private def plain (l : List Tk) : Option (List Char) := some (Tk.text l)
private def blank : Tk := ⟨Whitespace, [' ']⟩

/-- `[knight, "Knight, of the", see-also="horse , chess set"]` -/
private def sampleTerms : List Spaced := [⟨[blank], .quoted true [word "Knight".toList, ⟨Comma, [',']⟩, blank, word "of".toList], []⟩]
private def sampleRefs : List Spaced :=
  [⟨[blank], .named "see-also".toList true [word "horse".toList, blank, ⟨Comma, [',']⟩, blank, word "chess".toList, blank, word "set".toList], []⟩]

example : (∀ x ∈ (⟨[], .word "knight".toList, []⟩ : Spaced) :: (sampleTerms ++ sampleRefs), x.ok = true) ∧
    indexMacro plain false "indexterm:".toList (opened :: (writeList ⟨[], .word "knight".toList, []⟩ (sampleTerms ++ sampleRefs) ++ [closed, word ['x']])) =
      some (.term (.concealed [word "knight".toList] (some [word "Knight".toList, ⟨Comma, [',']⟩, blank, word "of".toList]) none)
        (.seeAlso ["horse".toList, "chess set".toList]), [word ['x']]) := by decide +kernel

example : Terms ["horse".toList, "chess set".toList] "horse , chess set".toList := by
  have := Terms.cons (a := []) (n := "horse".toList) (b := [' ']) (ns := ["chess set".toList]) (v := " chess set".toList) (by simp [Blank]) (by simp [Blank]; decide) (by decide)
    (by decide) (by decide) (by decide) (Terms.last (a := [' ']) (n := "chess set".toList) (b := []) (by simp [Blank]; decide) (by simp [Blank]) (by decide) (by decide) (by decide) (by decide))
  exact this

theorem cut_suffix {ns : List Nat} {line last : List Tk} {ps : List (List Tk)} (h : cut ns line = some (ps, last)) : last <:+ line := by
  induction ns generalizing line ps with
  | nil => cases h; exact List.suffix_refl _
  | cons n ns ih =>
    unfold cut at h
    by_cases hn : line.length < n
    · simp [hn] at h
    · simp only [hn, if_false] at h
      cases hd : line.drop n with
      | nil => simp [hd] at h
      | cons c r =>
        simp only [hd] at h
        by_cases hc : c.kind = Comma
        · simp only [hc, ne_eq, not_true_eq_false, if_false] at h
          cases hcut : cut ns r with
          | none => simp [hcut] at h
          | some q =>
            simp [hcut] at h
            have h1 := ih (ps := q.1) (by rw [hcut, ← h.2])
            have h2 : line.drop n <:+ line := List.drop_suffix _ _
            rw [hd] at h2
            exact (h1.trans (List.suffix_cons c r)).trans h2
        · simp [hc] at h

theorem upToClose_suffix {line p r : List Tk} (h : upToClose line = some (p, r)) : r <:+ line := by
  fun_induction upToClose line generalizing p r with
  | case1 => cases h
  | case2 => cases h
  | case3 t u rest hc => cases h; exact List.suffix_cons _ _
  | case4 t u rest hc ih =>
    simp only [Option.bind_eq_bind, Option.bind_eq_some_iff] at h
    obtain ⟨⟨p', r'⟩, h1, h2⟩ := h
    cases h2
    exact (ih h1).trans (List.suffix_cons _ _)

theorem parseInlineMacro_suffix {line rest : List Tk} {a : Attrs} (h : parseInlineMacro line = some (a, rest)) : rest <:+ line := by
  unfold parseInlineMacro parse at h
  cases line with
  | nil => cases h
  | cons t after =>
    simp only at h
    split at h
    · cases h; exact List.suffix_cons _ _
    · simp only [Option.bind_eq_bind, Bool.not_false, Bool.true_or, if_true, Option.bind_eq_some_iff] at h
      obtain ⟨⟨ps, close⟩, h1, b, h2, d, h3, h4⟩ := h
      have hc : close <:+ t :: after := by
        simp only [pieces, Option.bind_eq_bind, Option.bind_eq_some_iff] at h1
        obtain ⟨⟨qs, last⟩, h5, ⟨l, cl⟩, h6, h7⟩ := h1
        cases h7
        refine List.IsSuffix.trans ?_ (cut_suffix h5)
        simp only [lastPiece] at h6
        cases last with
        | nil => simp at h6
        | cons x xs =>
          simp only [Bool.false_eq_true, if_false] at h6
          split at h6
          · cases h6; exact List.suffix_refl _
          · exact upToClose_suffix h6
      cases close with
      | nil => cases h4
      | cons c r =>
        simp only at h4
        split at h4
        · cases h4; exact (List.suffix_cons _ _).trans hc
        · cases h4

/-- C120 (kept): a macro without a first term is text, just as it is written, and the text behind it is left alone: nothing is lost. -/
theorem C120_kept {single : List Tk → Option (List Char)} {visible : Bool} {name text : List Char} {line rest : List Tk}
    (h : indexMacro single visible name line = some (.invalid text, rest)) : text ++ Tk.text rest = name ++ Tk.text line := by
  cases line with
  | nil => cases h
  | cons t line =>
    rw [indexMacro] at h
    by_cases ho : t.kind = OpenBracket
    case neg => rw [if_pos ho] at h; cases h
    · simp only [ho, ne_eq, not_true_eq_false, if_false, Option.map_eq_some_iff] at h
      obtain ⟨⟨a, r⟩, h1, h2⟩ := h
      simp only at h2
      cases hp : pos a 0 with
      | some v => rw [hp] at h2; cases h2
      | none =>
        rw [hp] at h2
        cases h2
        obtain ⟨pre, rfl⟩ := parseInlineMacro_suffix h1
        simp [Tk.text]

/-- C120 (no terms): a macro with nothing in its brackets is such a macro. -/
theorem C120_empty (single : List Tk → Option (List Char)) (visible : Bool) (name : List Char) (o close : Tk) (ho : o.kind = OpenBracket)
    (hk : close.kind = CloseBracket) (rest : List Tk) :
    indexMacro single visible name (o :: close :: rest) = some (.invalid (name ++ o.lexeme ++ close.lexeme), rest) := by
  rw [indexMacro, if_neg (by simp [ho]), parseInlineMacro, parse, if_pos hk]
  simp [pos, Tk.text]

/-- C120 fails when the reference is written first: `indexterm:[see=horse,knight]` is reported as invalid and shown as text. -/
theorem C120_first_violated : indexMacro plain false "indexterm:".toList
    (opened :: (writeList ⟨[], .namedWord "see".toList "horse".toList, []⟩ [⟨[], .word "knight".toList, []⟩] ++ [closed])) =
      some (.invalid "indexterm:[see=horse,knight]".toList, []) := by decide +kernel

/-- C120 fails for a reference between terms: the second term becomes the third one. -/
theorem C120_between_violated : indexMacro plain false "indexterm:".toList
    (opened :: (writeList ⟨[], .word ['a'], []⟩ [⟨[], .namedWord "see".toList ['x'], []⟩, ⟨[], .word ['b'], []⟩] ++ [closed])) =
      some (.term (.concealed [word ['a']] none (some [word ['b']])) (.see ['x']), []) := by decide +kernel

/-- C120 fails for markup in a reference: if the value is not a single text, there is no reference. -/
theorem C120_markup_violated (single : List Tk → Option (List Char)) (v : List Tk) (hv : v ≠ []) (h : single v = none) (a : Attrs)
    (ha : a.named = [("see".toList, v)]) : reference single a = .none := by
  have hne : ¬ "see".toList = "see-also".toList := by decide
  have h1 : named single a "see".toList = none := by simp [named, ha, hv, h]
  have h2 : named single a "see-also".toList = none := by
    simp only [named, ha, List.find?_cons, List.find?_nil, hne, decide_false, Option.bind_none]
  simp only [reference, h1, h2]

/-- C120 fails for a fourth term: it is lost. -/
theorem C120_fourth_violated : indexMacro plain false "indexterm:".toList
    (opened :: (writeList ⟨[], .word ['a'], []⟩ [⟨[], .word ['b'], []⟩, ⟨[], .word ['c'], []⟩, ⟨[], .word ['d'], []⟩] ++ [closed])) =
      some (.term (.concealed [word ['a']] (some [word ['b']]) (some [word ['c']])) .none, []) := by decide +kernel

end Verif.Props

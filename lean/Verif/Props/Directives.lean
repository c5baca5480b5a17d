import Verif.Spec.Directives
import Verif.Lemmas.DirRegex
namespace Verif.Props
open Verif.Directives

/-! ### C07 -/

/-- C07, in part: when the body of a false conditional consists of text and `ifdef`/`ifndef` blocks nested to any
depth, exactly the lines up to and including its own endif are skipped. Missing: bodies with `ifeval` blocks, with
one-line conditionals, or with directives quoted inside a line — there the code is wrong, see the violations. -/
theorem C07_skips_to_own_endif_partial (body : Doc) (h : body.Plain) (e : DLine) (target : List Char)
    (he : e.first = some (.endif target)) (rest : List DLine) :
    skipUntilEndif 1 (body.render ++ e :: rest) = some rest := by
  have key : ∀ (body : Doc), body.Plain → ∀ (n : Nat) (tail : List DLine),
      skipUntilEndif (n + 1) (body.render ++ tail) = skipUntilEndif (n + 1) tail := by
    intro body
    induction body with
    | nil => intro _ n tail; rfl
    | text t rest ih =>
      intro h n tail
      simp only [Doc.render, List.cons_append, skipUntilEndif, Option.toList_none, List.nil_append, skipTokens]
      exact ih h n tail
    | oneLine d a c rest => intro h; exact absurd h (by simp [Doc.Plain])
    | evalBlock h e b r => intro h; exact absurd h (by simp [Doc.Plain])
    | block d a body target rest ih1 ih2 =>
      intro h n tail
      simp only [Doc.render, List.cons_append, skipUntilEndif, Option.toList_some, List.nil_append,
        skipTokens, List.append_assoc]
      rw [ih1 h.1]
      simp only [skipUntilEndif, Option.toList_some, skipTokens, Nat.add_sub_cancel, List.cons_append]
      rw [if_neg (by omega)]
      exact ih2 h.2 n tail
  rw [key body h]
  simp [skipUntilEndif, he, skipTokens]

/-- one attribute -/
private def one (a : String) : Names := ⟨',', [a.toList]⟩

private theorem one_ok (a : String) (h : ∀ c ∈ a.toList, c ≠ ',' ∧ c ≠ '+') : (one a).Ok :=
  ⟨.inl rfl, by simp [one], by simpa [one] using h⟩

example : (Doc.block true (one "ab") (.block false (one "cd") (.text ['x'] .nil) [] .nil) [] (.text ['y'] .nil)).Plain :=
  by simp [Doc.Plain]

/-- C07 is violated: an `ifeval` inside a dropped block is not counted, so its endif ends the outer block and the
rest of that block is kept. -/
theorem C07_nested_ifeval_violated :
    readAll (fun _ => false) []
      (Doc.block true (one "aa") (.evalBlock true "1 < 2".toList (.text ['x'] .nil) (.text ['y'] .nil)) [] .nil).render =
      ([['y']], [['a', 'a']], []) ∧
    (Doc.block true (one "aa") (.evalBlock true "1 < 2".toList (.text ['x'] .nil) (.text ['y'] .nil)) [] .nil).expected
      (fun _ => false) = [] := by decide +kernel

/-- C07 is violated: a one-line conditional inside a dropped block is counted as if it needed an endif, so the
skipping runs past the block's own endif to the end of the document. -/
theorem C07_one_line_conditional_violated :
    readAll (fun _ => false) []
      (Doc.block true (one "aa") (.oneLine true (one "bb") ['x'] .nil) [] (.text ['y'] .nil)).render =
      ([], [['a', 'a']], [.neverClosed]) ∧
    (Doc.block true (one "aa") (.oneLine true (one "bb") ['x'] .nil) [] (.text ['y'] .nil)).expected
      (fun _ => false) = [['y']] := by decide +kernel

/-- C07 is violated: in a dropped block, a text line that merely mentions `endif::[]` ends the block. -/
theorem C07_quoted_directive_violated :
    skipUntilEndif 1 [⟨none, [.endif []], "see endif::[]".toList⟩, ⟨none, [], ['x']⟩, ⟨some (.endif []), [], []⟩] =
      some [⟨none, [], ['x']⟩, ⟨some (.endif []), [], []⟩] := by decide +kernel

/-! ### C08 -/

private theorem splitAttrs_name (n : List Char) (h : ∀ c ∈ n, c ≠ ',' ∧ c ≠ '+') : splitAttrs n = [n] := by
  induction n with
  | nil => rfl
  | cons c n ih =>
    have := h c (by simp)
    simp [splitAttrs, this.1, this.2, ih fun d hd => h d (by simp [hd])]

private theorem splitAttrs_append (n : List Char) (sep : Char) (hs : sep = ',' ∨ sep = '+') (rest : List Char)
    (h : ∀ c ∈ n, c ≠ ',' ∧ c ≠ '+') : splitAttrs (n ++ sep :: rest) = n :: splitAttrs rest := by
  induction n with
  | nil => simp [splitAttrs, hs]
  | cons c n ih =>
    have := h c (by simp)
    simp [splitAttrs, this.1, this.2, ih fun d hd => h d (by simp [hd])]

private theorem splitAttrs_join (sep : Char) (hs : sep = ',' ∨ sep = '+') (ns : List (List Char)) (hne : ns ≠ [])
    (h : ∀ n ∈ ns, ∀ c ∈ n, c ≠ ',' ∧ c ≠ '+') : splitAttrs (joinWith sep ns) = ns := by
  induction ns with
  | nil => exact absurd rfl hne
  | cons n ns ih =>
    cases ns with
    | nil => exact splitAttrs_name n (h n (by simp))
    | cons m ms =>
      show splitAttrs (n ++ sep :: joinWith sep (m :: ms)) = _
      rw [splitAttrs_append n sep hs _ (h n (by simp)), ih (by simp) fun x hx => h x (by simp [hx])]

private theorem contains_join (ns : List (List Char)) (h : ∀ n ∈ ns, ∀ c ∈ n, c ≠ ',' ∧ c ≠ '+') :
    (joinWith '+' ns).contains ',' = false ∧ ((joinWith ',' ns).contains ',' = decide (2 ≤ ns.length)) := by
  induction ns with
  | nil => simp [joinWith]
  | cons n ns ih =>
    have hn : n.contains ',' = false := by
      rw [← Bool.not_eq_true, List.contains_iff_mem]; intro hm; exact (h n (by simp) _ hm).1 rfl
    obtain ⟨i1, i2⟩ := ih fun x hx => h x (by simp [hx])
    cases ns with
    | nil => simp only [joinWith, hn]; simp
    | cons m ms =>
      have hn' : ',' ∉ n := by simpa [List.contains_iff_mem] using hn
      have i1' : ',' ∉ joinWith '+' (m :: ms) := by simpa using i1
      constructor
      · show (n ++ '+' :: joinWith '+' (m :: ms)).contains ',' = false
        simp [hn', i1']
      · show (n ++ ',' :: joinWith ',' (m :: ms)).contains ',' = _
        simp

private theorem foldl_any (isSet : List Char → Bool) (defined : Bool) (ns : List (List Char)) (b : Bool) :
    ns.foldl (fun current attr =>
      if !true && !current && defined then false else if true && current then true else isSet attr) b =
      (b || ns.any isSet) := by
  induction ns generalizing b with
  | nil => simp
  | cons n ns ih =>
    simp only [List.foldl_cons, ih]
    cases b <;> simp

private theorem foldl_all (isSet : List Char → Bool) (ns : List (List Char)) (b : Bool) :
    ns.foldl (fun current attr =>
      if !false && !current && true then false else if false && current then true else isSet attr) b =
      (b && ns.all isSet) := by
  induction ns generalizing b with
  | nil => simp
  | cons n ns ih =>
    simp only [List.foldl_cons, ih]
    cases b <;> simp

/-- C08, in part: with attribute names separated by commas `ifdef` holds iff any is set, separated by `+` iff all
are set, and for commas (or a single name) `ifndef` is its negation. Missing: `ifndef` with `+`, which the code
gets wrong (see the violation). -/
theorem C08_ifdef_any_all_partial (isSet : List Char → Bool) (ns : List (List Char)) (hne : ns ≠ [])
    (h : ∀ n ∈ ns, ∀ c ∈ n, c ≠ ',' ∧ c ≠ '+') :
    evaluateIfdef isSet true (joinWith ',' ns) = ns.any isSet ∧
    evaluateIfdef isSet true (joinWith '+' ns) = ns.all isSet ∧
    evaluateIfdef isSet false (joinWith ',' ns) = !ns.any isSet := by
  obtain ⟨c1, c2⟩ := contains_join ns h
  refine ⟨?_, ?_, ?_⟩
  · unfold evaluateIfdef
    simp only [splitAttrs_join ',' (.inl rfl) ns hne h, c2]
    by_cases hl : 2 ≤ ns.length
    · simp only [hl, decide_true]
      rw [foldl_any]; simp
    · obtain ⟨n, rfl⟩ : ∃ n, ns = [n] := by
        match ns, hne, hl with
        | [n], _, _ => exact ⟨n, rfl⟩
        | _ :: _ :: _, _, hl => simp at hl
      simp
  · unfold evaluateIfdef
    simp only [splitAttrs_join '+' (.inr rfl) ns hne h, c1]
    rw [foldl_all]; simp
  · unfold evaluateIfdef
    simp only [splitAttrs_join ',' (.inl rfl) ns hne h, c2]
    by_cases hl : 2 ≤ ns.length
    · simp only [hl, decide_true]
      rw [foldl_any]; simp
    · obtain ⟨n, rfl⟩ : ∃ n, ns = [n] := by
        match ns, hne, hl with
        | [n], _, _ => exact ⟨n, rfl⟩
        | _ :: _ :: _, _, hl => simp at hl
      simp

example : joinWith ',' ["foo".toList, "bar".toList] = "foo,bar".toList := by decide

/-- C08 is violated: `ifndef::a+b` looks only at the last attribute: with `a` unset and `b` set both `ifdef::a+b`
and `ifndef::a+b` drop their block. -/
theorem C08_ifndef_plus_violated :
    evaluateIfdef (· == ['b']) true (joinWith '+' [['a'], ['b']]) = false ∧
    evaluateIfdef (· == ['b']) false (joinWith '+' [['a'], ['b']]) = false := by decide

/-! ### C09 -/

private theorem evaluate_holds (isSet : List Char → Bool) (d : Bool) (n : Names) (hok : n.Ok) (hh : n.Handled d) :
    evaluateIfdef isSet d n.text = n.holds isSet d := by
  obtain ⟨sep, ns⟩ := n
  obtain ⟨hs, hne, hc⟩ := hok
  obtain ⟨h1, h2, h3⟩ := C08_ifdef_any_all_partial isSet ns hne hc
  simp only [Names.text, Names.holds] at *
  rcases hs with rfl | rfl
  · cases d
    · simpa using h3
    · simpa using h1
  · cases d
    · rcases hh with h | h | h
      · cases h
      · simp at h
      · match ns, h with
        | [a], _ => simpa [joinWith] using h3
    · simpa using h2

private theorem readAll_append (isSet : List Char → Bool) (doc : Doc) (hw : doc.WellFormed)
    (hs : doc.Supported isSet) (stack : List (List Char)) (tail : List DLine) :
    ∃ stack', (stack ≠ [] → stack' ≠ []) ∧ (doc.NoCond → stack' = stack) ∧
      readAll isSet stack (doc.render ++ tail) =
        (doc.expected isSet ++ (readAll isSet stack' tail).1, (readAll isSet stack' tail).2) := by
  induction doc generalizing stack tail with
  | nil => exact ⟨stack, id, fun _ => rfl, by simp [Doc.render, Doc.expected]⟩
  | text t rest ih =>
    obtain ⟨st, h1, h2, h3⟩ := ih hw hs stack tail
    refine ⟨st, h1, h2, ?_⟩
    simp only [Doc.render, List.cons_append]
    rw [readAll]
    simp [action, h3, Doc.expected]
  | oneLine d a c rest ih =>
    obtain ⟨st, h1, h2, h3⟩ := ih hw.2.2 hs.2 (a.text :: stack) tail
    refine ⟨st, fun _ => h1 (by simp), fun h => absurd h (by simp [Doc.NoCond]), ?_⟩
    simp only [Doc.render, List.cons_append]
    rw [readAll]
    cases hc : c with
    | nil => exact absurd hc hw.2.1
    | cons x xs =>
      have hev := evaluate_holds isSet d a hw.1 hs.1
      cases he : a.holds isSet d <;> rw [he] at hev <;> simp [action, hev, h3, Doc.expected, he]
  | block d a body target rest ih1 ih2 =>
    obtain ⟨hok, ht, hwb, hwr⟩ := hw
    obtain ⟨hh, hb, hr⟩ := hs
    have hev := evaluate_holds isSet d a hok hh
    cases he : a.holds isSet d with
    | false =>
      rw [he] at hb hev
      obtain ⟨st, h1, h2, h3⟩ := ih2 hwr hr (a.text :: stack) tail
      refine ⟨st, fun _ => h1 (by simp), fun h => absurd h (by simp [Doc.NoCond]), ?_⟩
      simp only [Doc.render, List.cons_append, List.append_assoc]
      rw [readAll]
      simp only [action, hev]
      have hsk := C07_skips_to_own_endif_partial body (by simpa using hb) ⟨some (.endif target), [], endLine target⟩ target rfl
        (rest.render ++ tail)
      split
      · rename_i hn; rw [hsk] at hn; cases hn
      · rename_i ls' hn
        rw [hsk] at hn; cases hn
        simp [h3, Doc.expected, he]
    | true =>
      rw [he] at hb hev
      simp only [if_true] at hb
      obtain ⟨st, h1, h2, h3⟩ := ih1 hwb hb.1 (a.text :: stack) (⟨some (.endif target), [], endLine target⟩ :: (rest.render ++ tail))
      obtain ⟨st', g1, g2, g3⟩ := ih2 hwr hr st tail
      refine ⟨st', fun _ => g1 (h1 (by simp)), fun h => absurd h (by simp [Doc.NoCond]), ?_⟩
      simp only [Doc.render, List.cons_append, List.append_assoc]
      rw [readAll]
      simp only [action, hev, h3]
      have hst : st ≠ [] := h1 (by simp)
      obtain ⟨top, st0, rfl⟩ := List.exists_cons_of_ne_nil hst
      rw [readAll]
      have hacc : ¬ (target ≠ [] ∧ top ≠ target) := by
        rintro ⟨hne, hmis⟩
        rcases ht with rfl | ht
        · exact hne rfl
        · rcases hb.2 with h | hnc
          · exact hne h
          · have := h2 hnc
            simp only [List.cons.injEq] at this
            exact hmis (this.1.trans ht.symm)
      simp only [action, if_neg hacc, g3, Doc.expected, he]
      simp
  | evalBlock h e body rest ih1 ih2 =>
    obtain ⟨hwb, hwr⟩ := hw
    obtain ⟨hb, hr⟩ := hs
    cases h with
    | false =>
      obtain ⟨st, h1, h2, h3⟩ := ih2 hwr hr stack tail
      refine ⟨st, h1, fun h => absurd h (by simp [Doc.NoCond]), ?_⟩
      simp only [Doc.render, List.cons_append, List.append_assoc]
      rw [readAll]
      simp only [action]
      have hsk := C07_skips_to_own_endif_partial body (by simpa using hb) ⟨some (.endif []), [], endLine []⟩ [] rfl
        (rest.render ++ tail)
      split
      · rename_i hn; rw [hsk] at hn; cases hn
      · rename_i ls' hn
        rw [hsk] at hn; cases hn
        simp [h3, Doc.expected]
    | true =>
      simp only [if_true] at hb
      obtain ⟨st, h1, h2, h3⟩ := ih1 hwb hb (ifevalMark :: stack) (⟨some (.endif []), [], endLine []⟩ :: (rest.render ++ tail))
      obtain ⟨st', g1, g2, g3⟩ := ih2 hwr hr st tail
      refine ⟨st', fun _ => g1 (h1 (by simp)), fun h => absurd h (by simp [Doc.NoCond]), ?_⟩
      simp only [Doc.render, List.cons_append, List.append_assoc]
      rw [readAll]
      simp only [action, h3]
      have hst : st ≠ [] := h1 (by simp)
      obtain ⟨top, st0, rfl⟩ := List.exists_cons_of_ne_nil hst
      rw [readAll]
      simp only [action, Doc.expected]
      simp [g3]

/-- C09, in part: a properly nested document (bodies that are dropped being plain, and endifs naming their
conditional only around kept blocks without conditionals) is read without diagnostics, and exactly the lines whose
conditions hold are delivered. Missing: documents outside `Supported` (see the violations here and at C07), and
that no conditional stays open at the end, which is false for the code. -/
theorem C09_well_nested_document_partial (isSet : List Char → Bool) (doc : Doc) (hw : doc.WellFormed)
    (hs : doc.Supported isSet) :
    (readAll isSet [] doc.render).1 = doc.expected isSet ∧ (readAll isSet [] doc.render).2.2 = [] := by
  obtain ⟨st, _, _, h⟩ := readAll_append isSet doc hw hs [] []
  rw [List.append_nil] at h
  rw [h]
  simp [readAll]

example : let d := Doc.block true (one "ab") (.evalBlock true "1 < 2".toList (.block false ⟨',', ["cd".toList, "ef".toList]⟩ (.text ['x'] .nil)
      "cd,ef".toList .nil) (.oneLine true ⟨'+', ["ab".toList, "gh".toList]⟩ ['y'] (.oneLine true (one "ab") ['z'] .nil))) [] .nil
    d.WellFormed ∧ d.Supported (· == ['a', 'b']) ∧ d.expected (· == ['a', 'b']) = [['x'], ['z']] ∧
      d.render.map (·.text) = ["ifdef::ab[]", "ifeval::[1 < 2]", "ifndef::cd,ef[]", "x", "endif::cd,ef[]", "endif::[]", "ifdef::ab+gh[y]",
        "ifdef::ab[z]", "endif::[]"].map String.toList := by
  have h1 := one_ok "ab" (by decide)
  refine ⟨?_, ?_, by decide, by decide⟩
  · have h2 : (⟨',', ["cd".toList, "ef".toList]⟩ : Names).Ok := by refine ⟨.inl rfl, by decide, by decide⟩
    have h3 : (⟨'+', ["ab".toList, "gh".toList]⟩ : Names).Ok := by refine ⟨.inr rfl, by decide, by decide⟩
    simp only [Doc.WellFormed, h1, h2, h3]
    decide
  · simp [Doc.Supported, Doc.NoCond, Names.Handled, Names.holds, one]

/-- C09 is violated: the stack of open conditionals is never popped, so the endif of an outer block that names its
attribute is rejected after an inner block was closed, and is delivered as text. -/
theorem C09_nested_endif_violated :
    let d := Doc.block true (one "aa") (.block true (one "bb") (.text ['x'] .nil) ['b', 'b'] .nil) ['a', 'a'] .nil
    d.WellFormed ∧
      readAll (fun _ => true) [] d.render = ([['x'], "endif::aa[]".toList], [['b', 'b'], ['a', 'a']], [.mismatched]) ∧
      d.expected (fun _ => true) = [['x']] := by
  have h1 := one_ok "aa" (by decide)
  have h2 := one_ok "bb" (by decide)
  refine ⟨?_, ?_, ?_⟩
  · simp only [Doc.WellFormed, h1, h2]; decide
  · decide +kernel
  · decide +kernel

/-- C09 is violated: after a closed block a stray endif is accepted silently. -/
theorem C09_stray_endif_violated :
    readAll (fun _ => true) [] ((Doc.block true (one "aa") .nil ['a', 'a'] .nil).render ++ [⟨some (.endif []), [], endLine []⟩]) =
      ([], [['a', 'a']], []) := by decide +kernel

/-! ### C56 -/

/-- C56, in part: `ifdef::names[text]` and `ifndef::names[text]` with names of at least two characters are
recognised with exactly these names and text. Missing: names of one character, which the code does not recognise. -/
theorem C56_ifdef_recognised_partial (names text : List Char) (c : Char) (hlen : names ≠ [])
    (hn : '[' ∉ names ++ [c]) (hc : Regex.space c = false) (ht : '\n' ∉ text) (defined : Bool) :
    matchIfdef (ifLine defined (names ++ [c]) text) = some (names ++ [c], text) := by
  have h := ifdef_match names text c hlen hn hc ht
  cases defined
  · exact h.2
  · exact h.1

example : "ifdef::foo[]".toList = ifLine true ("fo".toList ++ ['o']) [] ∧ Regex.space 'o' = false := by decide

/-- C56 is violated: an attribute with a one-letter name is not recognised. -/
theorem C56_one_letter_name_violated : matchIfdef (ifLine true ['a'] []) = none := by decide +kernel

/-- C56: only such lines are recognised. -/
theorem C56_ifdef_only (line names text : List Char) (h : matchIfdef line = some (names, text)) :
    (∃ defined, line = ifLine defined names text) ∧ names ≠ [] ∧ '[' ∉ names := by
  obtain ⟨h1, h2, h3, _, _⟩ := ifdef_only h
  refine ⟨?_, by (rintro rfl; simp at h3), h2⟩
  rcases h1 with h1 | h1
  · exact ⟨true, h1⟩
  · exact ⟨false, h1⟩

example : matchIfdef "ifndef::foo[bar]".toList = some ("foo".toList, "bar".toList) := by decide +kernel

/-- C56, endif: a line is an endif for the target just if it is `endif::target[]`, for every target without white space (also the
empty one). -/
theorem C56_endif_recognised (line target : List Char) :
    matchEndif line = some target ↔ line = endLine target ∧ ∀ c ∈ target, Regex.space c = false := by
  constructor
  · exact endif_only
  · rintro ⟨rfl, h⟩
    exact endif_match target h

example : (∀ c ∈ "foo".toList, Regex.space c = false) ∧ endLine "foo".toList = "endif::foo[]".toList := by decide

end Verif.Props

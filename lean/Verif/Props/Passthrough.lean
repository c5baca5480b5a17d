import Verif.Lemmas.Passthrough
import Verif.Lemmas.Subs
/-! C38: text in inline passthroughs reappears unchanged where it was. -/
namespace Verif.Props
open Verif Passthrough

/-- Partial: in the lines of a paragraph, written with text between pluses and `pass` macros that may go over several lines,
the reader finds every token and, in the place of every passthrough, its text with the substitutions it asks for; `used`:
passthroughs from before. Missing: more than 100000 passthroughs in a document, passthroughs too close to one another, ends
on lines of their own, empty ones (see `C38_violated_…`), and text between pluses that has pluses in it. -/
theorem C38_restored_partial (delim : Tk → Bool) (lines : List (List Piece)) (used : Nat) (fuel : Nat) (h : ∀ ps ∈ lines, ps ≠ [] ∧ lineOk delim none ps)
    (hcount : used + (lines.flatten.filter (·.isPass)).length ≤ 100000) (hfuel : lines.length < fuel) :
    ∃ store, restoreLines delim fuel (lines.flatMap write) (List.replicate used none) = some (lines.map (·.map Piece.meaning), store) := by
  have hlen : (passes lines.flatten).length = (lines.flatten.filter (·.isPass)).length := by
    induction lines.flatten with
    | nil => rfl
    | cons p ps ih => cases p <;> simp [passes, Piece.meaning, Piece.isPass, ih]
  obtain ⟨f, rfl⟩ : ∃ f, fuel = lines.length + (f + 1) := ⟨fuel - lines.length - 1, by omega⟩
  have := restoreLines_written (delim := delim) [] (f + 1) lines (List.replicate used none) h (by simp; omega)
  rw [List.append_nil] at this
  rw [this]
  simp [restoreLines]

/-- the letter or the word for a substitution in the target of a macro -/
def namesOf : Sub → List (List Char)
  | .specialChars => ["c".toList, "specialchars".toList, "v".toList, "verbatim".toList]
  | .attrRefs => ["a".toList, "attributes".toList]
  | .charReplacement => ["r".toList, "replacements".toList]
  | .macros => ["m".toList, "macros".toList]
  | .inlineFormatting => ["q".toList, "quotes".toList]
  | .postReplacement => ["p".toList]
  | .callouts => []
def normalNames : List (List Char) := ["n".toList, "normal".toList]

private theorem targetSub_contains (s : Substitutions) (hs : s.contains .callouts = false) (n : List Char) :
    (targetSub s n).contains .callouts = false ∧ ∀ x, x ≠ .callouts → ((targetSub s n).contains x = true ↔ s.contains x = true ∨ n ∈ namesOf x ∨ n ∈ normalNames) := by
  have ins : ∀ (X : Sub), X ≠ .callouts → (∀ x, (n ∈ namesOf x ∨ n ∈ normalNames) ↔ x = X) → targetSub s n = s.insert X →
      (targetSub s n).contains .callouts = false ∧ ∀ x, x ≠ .callouts → ((targetSub s n).contains x = true ↔ s.contains x = true ∨ n ∈ namesOf x ∨ n ∈ normalNames) := by
    intro X hX hn e
    rw [e]
    refine ⟨by simp [contains_insert, hs, hX], fun x _ => ?_⟩
    rw [hn, contains_insert]
    simp only [Bool.or_eq_true, decide_eq_true_eq]
    exact ⟨fun h => h.imp id Eq.symm, fun h => h.imp id Eq.symm⟩
  have norm : (∀ x, n ∉ namesOf x) → n ∈ normalNames → targetSub s n = .normal →
      (targetSub s n).contains .callouts = false ∧ ∀ x, x ≠ .callouts → ((targetSub s n).contains x = true ↔ s.contains x = true ∨ n ∈ namesOf x ∨ n ∈ normalNames) := by
    intro hn hm e
    rw [e]
    refine ⟨by decide, fun x hx => ?_⟩
    simp only [hm, or_true, iff_true]
    cases x <;> first | decide | exact absurd rfl hx
  by_cases h : n ∈ namesOf .specialChars ++ namesOf .attrRefs ++ namesOf .charReplacement ++ namesOf .macros ++ namesOf .inlineFormatting ++ namesOf .postReplacement ++ normalNames
  · simp only [namesOf, normalNames, List.cons_append, List.nil_append, List.mem_cons, List.not_mem_nil, or_false] at h
    rcases h with h | h | h | h | h | h | h | h | h | h | h | h | h | h | h <;> subst h <;> first
      | exact ins .specialChars (by decide) (fun x => by cases x <;> decide) rfl
      | exact ins .attrRefs (by decide) (fun x => by cases x <;> decide) rfl
      | exact ins .charReplacement (by decide) (fun x => by cases x <;> decide) rfl
      | exact ins .macros (by decide) (fun x => by cases x <;> decide) rfl
      | exact ins .inlineFormatting (by decide) (fun x => by cases x <;> decide) rfl
      | exact ins .postReplacement (by decide) (fun x => by cases x <;> decide) rfl
      | exact norm (fun x => by cases x <;> decide) (by decide) rfl
  · simp only [namesOf, normalNames, List.cons_append, List.nil_append, List.mem_cons, List.not_mem_nil, or_false, not_or] at h
    obtain ⟨h1, h2, h3, h4, h5, h6, h7, h8, h9, h10, h11, h12, h13, h14, h15⟩ := h
    have : targetSub s n = s := by
      unfold targetSub
      simp only [h1, h2, h3, h4, h5, h6, h7, h8, h9, h10, h11, h12, h13, h14, h15, or_self, if_false]
    rw [this]
    clear ins norm
    refine ⟨hs, fun x hx => ?_⟩
    have h14' : n ∉ normalNames := by simp only [normalNames, List.mem_cons, List.not_mem_nil, or_false, not_or]; exact ⟨h14, h15⟩
    have hx' : n ∉ namesOf x := by
      cases x <;> simp only [namesOf, List.mem_cons, List.not_mem_nil, or_false, not_or, not_false_eq_true] <;> simp only [h1, h2, h3, h4, h5, h6, h7, h8, h9, h10, h11, h12, h13, not_false_eq_true, and_self]
    simp only [h14', hx', or_false]

/-- a macro applies exactly the substitutions its target names (other names have no effect) -/
theorem C38_macro_subs (names : List (List Char)) (hn : ∀ n ∈ names, ',' ∉ n) (x : Sub) :
    (macroSubs (Split.joinWith ',' names)).contains x = true ↔ x ≠ .callouts ∧ ∃ n ∈ names, n ∈ namesOf x ∨ n ∈ normalNames := by
  have key : ∀ (names : List (List Char)) (s : Substitutions), s.contains .callouts = false →
      (names.foldl targetSub s).contains .callouts = false ∧
      (x ≠ .callouts → ((names.foldl targetSub s).contains x = true ↔ s.contains x = true ∨ ∃ n ∈ names, n ∈ namesOf x ∨ n ∈ normalNames)) := by
    intro names
    induction names with
    | nil => intro s hs; exact ⟨hs, fun _ => by simp⟩
    | cons n names ih =>
      intro s hs
      obtain ⟨h1, h2⟩ := targetSub_contains s hs n
      obtain ⟨h3, h4⟩ := ih _ h1
      refine ⟨h3, fun hx => ?_⟩
      rw [List.foldl_cons, h4 hx, h2 x hx]
      simp only [List.mem_cons, exists_eq_or_imp, or_assoc]
  have h0 : ∀ x : Sub, Substitutions.none.contains x = false := by intro x; cases x <;> decide
  have hfold : macroSubs (Split.joinWith ',' names) = names.foldl targetSub .none := by
    unfold macroSubs
    cases names with
    | nil => rfl
    | cons a b =>
      split
      · rename_i he
        have e := Split.splitOn_joinWith ',' (a :: b) (by simp) hn
        rw [he] at e
        rw [← e]
        rfl
      · rw [Split.splitOn_joinWith ',' (a :: b) (by simp) hn]
  rw [hfold]
  obtain ⟨h1, h2⟩ := key names .none (h0 _)
  by_cases hx : x = .callouts
  · subst hx; simp [h1]
  · rw [h2 hx, h0]; simp [hx]

/-! #### examples and violations -/

private def word (s : String) : Tk := ⟨.Word, s.toList⟩
private def space : Tk := ⟨.Whitespace, [' ']⟩
private def noDelim : Tk → Bool := fun _ => false

/-- `a ++b++ c pass:q[d` and `e] +f+` -/
private def sample : List (List Piece) := [[.plain (word "a"), .plain space, .plus 2 [[word "b"]], .plain space, .plain (word "c"), .plain space,
  .passMacro [word "q"] [[word "d"], [word "e"]], .plain space, .plus 1 [[word "f"]]]]

example : ∃ store, restoreLines noDelim 2 (sample.flatMap write) (List.replicate 5 none) = some (sample.map (·.map Piece.meaning), store) := by
  refine C38_restored_partial noDelim sample 5 2 ?_ (by decide) (by decide)
  intro ps hps
  simp only [sample, List.mem_cons, List.not_mem_nil, or_false] at hps
  subst hps
  refine ⟨by simp, ?_⟩
  simp [lineOk, Piece.ok, Piece.lastKind, contentOk, word, space, noDelim, isDelimiter, wsish, isTarget, Piece.isPass]
example : (macroSubs "c,q,zzz".toList).contains .inlineFormatting = true := by decide
example : sample.flatMap write = [[word "a", space, ⟨.Plus, ['+']⟩, ⟨.Plus, ['+']⟩, word "b", ⟨.Plus, ['+']⟩, ⟨.Plus, ['+']⟩, space, word "c", space,
    passTok, word "q", openTok, word "d"], [word "e", closeTok, space, ⟨.Plus, ['+']⟩, word "f", ⟨.Plus, ['+']⟩]] := by decide

/-- the passthrough number 100001 of a document stops the program: its index is read as 10000, which is used up -/
theorem C38_violated_many (delim : Tk → Bool) (lines : List (List Piece)) (p : Piece) (ps : List Piece) (fuel : Nat)
    (h : ∀ l ∈ lines ++ [p :: ps], l ≠ [] ∧ lineOk delim none l) (hcount : (lines.flatten.filter (·.isPass)).length = 100000) (hp : p.isPass = true)
    (hfuel : lines.length < fuel) :
    restoreLines delim fuel ((lines ++ [p :: ps]).flatMap write) [] = none := by
  have hlen : (passes lines.flatten).length = 100000 := by
    rw [← hcount]
    induction lines.flatten with
    | nil => rfl
    | cons p ps ih => cases p <;> simp [passes, Piece.meaning, Piece.isPass, ih]
  obtain ⟨f, rfl⟩ : ∃ f, fuel = lines.length + (f + 1) := ⟨fuel - lines.length - 1, by omega⟩
  have hr := restoreLines_written (delim := delim) (write (p :: ps)) (f + 1) lines [] (fun l hl => h l (by simp [hl])) (by simp; omega)
  rw [List.flatMap_append, show List.flatMap write [p :: ps] = write (p :: ps) from by simp, hr]
  obtain ⟨m, ms, hw⟩ := write_cons (p :: ps)
  have hl := replaceLine_written (h (p :: ps) (by simp)).2 hw [] (List.replicate 100000 none)
  rw [List.append_nil, List.length_replicate] at hl
  rw [hw, hlen, List.nil_append, restoreLines, hl, Option.bind_some]
  obtain ⟨ts, he⟩ : ∃ ts, encode 100000 (p :: ps) = ⟨.PreprocPassthru, placeholder 100000⟩ :: ts := by
    cases p with
    | plain => cases hp
    | plus => exact ⟨_, rfl⟩
    | passMacro => exact ⟨_, rfl⟩
  have hi : readIndex (placeholder 100000) = some 10000 := by decide +kernel
  have hj : ((List.replicate 100000 none ++ (passes (p :: ps)).map some : Store)[10000]?).join = none := by
    rw [List.getElem?_append_left (by rw [List.length_replicate]; omega), List.getElem?_replicate]
    rfl
  simp only [he, restoreTokens, if_true, hi, Option.bind_some, hj, Option.bind_none, Option.map_none]

private def plus : Tk := ⟨.Plus, ['+']⟩
private def restored (lines : List (List Tk)) : Option (List (List Out)) := (restoreLines noDelim (lines.length + 1) lines []).map (·.1)

/-- `++a++ ++b++`: after text between pluses as many tokens are copied as there are pluses, so that the second text is taken
for text between single pluses, with a plus left over on both sides -/
theorem C38_violated_neighbours : restored [[plus, plus, word "a", plus, plus, space, plus, plus, word "b", plus, plus]] =
    some [[.pass ⟨.onlySpecialChars, [[word "a"]]⟩, .tok space, .tok plus, .pass ⟨.onlySpecialChars, [[word "b"]]⟩, .tok plus]] := by decide +kernel

/-- `pass:[]` stops the program -/
theorem C38_violated_empty : restored [[passTok, openTok, closeTok]] = none := by decide +kernel

/-- `pass:[a` and `]` on a line of its own: the bracket stays in the text -/
theorem C38_violated_own_line : restored [[passTok, openTok, word "a"], [closeTok, space, word "b"]] =
    some [[.pass ⟨.none, [[word "a"]]⟩], [.tok closeTok, .tok space, .tok (word "b")]] := by decide +kernel

/-- a line without tokens between lines of a paragraph leaves no trace in the text -/
theorem C38_empty_line (delim : Tk → Bool) (fuel : Nat) (lines : List (List Tk)) (store : Store) :
    restoreLines delim (fuel + 1) ([] :: lines) store = restoreLines delim fuel lines store := by
  have h : mayContainPass [] = false := rfl
  simp only [restoreLines, h, Bool.false_eq_true, if_false, Option.bind_some, restoreTokens, if_true]
  cases restoreLines delim fuel lines store <;> rfl

end Verif.Props

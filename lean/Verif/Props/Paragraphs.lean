import Verif.Lemmas.Paragraphs
/-! C94: paragraphs are shown as what they are written as. -/
namespace Verif.Props
open Verif Verif.Lexer Verif.LineKinds Verif.Paragraphs
open Verif.Directives (encode)

/-- **C94 partial**: a text of paragraphs that are written as in `Written` — plain text, text behind an admonition label, text indented by
blanks, text below a style in brackets, text in quotation marks with the line that says who said it, and quotes in the style of Markdown —
gives those paragraphs in that order, with all of their lines and without the marks. Missing: paragraphs with titles, anchors or other attributes,
lines with attribute references or `@`, quotes in quotes, paragraphs in lists and in delimited blocks, and what inline parsing makes of the lines
(C59 and C93). -/
theorem C94_paragraphs_partial (plugins : List (List UInt8)) (word : Char → Bool) (nl : List UInt8) (hnl : nl = [10] ∨ nl = [13, 10])
    (doc : List (List (List Char) × Shown)) (hw : ∀ d ∈ doc, Written d.1 d.2) (lines : List (List Char)) (hl : Laid (doc.map Prod.fst) lines)
    (hp : ∀ a : Admonition, encode a.label ∉ plugins) (n : Nat) (hn : doc.length + 3 ≤ n) :
    ∃ ps, read plugins word n (lines.flatMap (encode · ++ nl)) = some (.ok (ps, [])) ∧ shownAll ps = doc.map Prod.snd :=
  read_written hnl hp hw hl n hn

section
private def gap := "Mind the gap: it is wide".toList
private def deep := "and deep :)".toList
private def code := "let x".toList
private def code2 := "in y".toList
private def one := "One is".toList
private def two := "Two".toList
private def here := "I am \"here\",".toList
private def today := "today".toList
private def zoe := "Zoë".toList
private def book := "The Book, chapter 2".toList

private theorem note_written : Written ((Admonition.note.label ++ ": ".toList ++ gap) :: [deep]) (.text (.admonition .note) (gap :: [deep])) := by
  refine Written.label ⟨'M', by decide +kernel, by decide +kernel⟩ (by unfold Chars; decide +kernel) ⟨by decide +kernel, by decide +kernel⟩ ?_
  intro m hm
  rw [List.mem_singleton] at hm
  subst hm
  exact ⟨⟨'a', by decide +kernel, by decide +kernel⟩, by unfold Chars; decide +kernel, by decide +kernel⟩

private theorem text_one : TextLine one := ⟨⟨'O', by decide +kernel, by decide +kernel⟩, by decide +kernel, by decide +kernel, by decide +kernel, by decide +kernel⟩
private theorem text_two : TextLine two := ⟨⟨'T', by decide +kernel, by decide +kernel⟩, by decide +kernel, by decide +kernel, by decide +kernel, by decide +kernel⟩
private theorem text_code : TextLine code := ⟨⟨'l', by decide +kernel, by decide +kernel⟩, by decide +kernel, by decide +kernel, by decide +kernel, by decide +kernel⟩

private theorem code_written : Written ((code :: [code2]).map (List.replicate 2 ' ' ++ ·)) (.text .literal (code :: [code2])) := by
  refine Written.indented (by decide) (by decide) text_code ?_
  intro m hm
  rw [List.mem_singleton] at hm
  subst hm
  exact ⟨⟨'i', by decide +kernel, by decide +kernel⟩, by unfold Chars; decide +kernel⟩

private theorem style_written : Written (('[' :: "verse".toList ++ [']']) :: [two]) (.text .verse [two]) :=
  Written.styled (by simp [styles]) ⟨text_two, by intro m hm; cases hm⟩

private theorem marked_written : Written (markedAll [[one], [two]]) (.quotes ([[one], [two]].map (.text .paragraph))) := by
  refine Written.quotes (List.cons_ne_nil _ _) ?_
  intro p hp
  simp only [List.mem_cons, List.not_mem_nil, or_false] at hp
  rcases hp with h | h <;> subst h
  · exact ⟨text_one, by intro m hm; cases hm⟩
  · exact ⟨text_two, by intro m hm; cases hm⟩

private theorem quote_written : Written (inMarks (here :: [today]) ++ [credit zoe (some book)]) (.quoted (here :: [today]) [zoe] ((some book).map ([·]))) := by
  refine Written.quoted ⟨'I', by decide +kernel, by decide +kernel⟩ (by unfold Chars; decide +kernel) ⟨by decide +kernel, by decide +kernel⟩ ?_
    ⟨⟨⟨'Z', by decide +kernel, by decide +kernel⟩, by unfold Chars; decide +kernel, by decide +kernel, by decide +kernel⟩, ?_⟩
  · intro m hm
    rw [List.mem_singleton] at hm
    subst hm
    exact ⟨⟨'t', by decide +kernel, by decide +kernel⟩, by unfold Chars; decide +kernel, by decide +kernel⟩
  · intro c hc
    cases hc
    exact ⟨⟨'T', by decide +kernel, by decide +kernel⟩, by unfold Chars; decide +kernel, by decide +kernel⟩

private def doc : List (List (List Char) × Shown) :=
  [((Admonition.note.label ++ ": ".toList ++ gap) :: [deep], .text (.admonition .note) (gap :: [deep])),
    ((code :: [code2]).map (List.replicate 2 ' ' ++ ·), .text .literal (code :: [code2])),
    (('[' :: "verse".toList ++ [']']) :: [two], .text .verse [two]),
    (markedAll [[one], [two]], .quotes ([[one], [two]].map (.text .paragraph))),
    (inMarks (here :: [today]) ++ [credit zoe (some book)], .quoted (here :: [today]) [zoe] ((some book).map ([·])))]

private def joined : List (List (List Char)) → List (List Char)
  | [] => []
  | c :: cs => c ++ [] :: joined cs

private theorem laid_joined : ∀ {cs}, (∀ c ∈ cs, c ≠ []) → Laid cs (joined cs)
  | [], _ => .nil
  | c :: _, h => .cons (h c List.mem_cons_self) (laid_joined fun d hd => h d (List.mem_cons_of_mem _ hd))

private theorem doc_source : (joined (doc.map Prod.fst)).flatMap (encode · ++ [10]) = encode
    "NOTE: Mind the gap: it is wide\nand deep :)\n\n  let x\n  in y\n\n[verse]\nTwo\n\n> One is\n>\n> Two\n\n\"I am \"here\",\ntoday\"\n-- Zoë, The Book, chapter 2\n\n".toList := by
  decide +kernel

/-- the hypotheses are met by a text with an admonition, a literal paragraph, a verse, a quote with two paragraphs and a quoted paragraph -/
example : ∃ ps, read [] (fun _ => false) 8 (encode
    "NOTE: Mind the gap: it is wide\nand deep :)\n\n  let x\n  in y\n\n[verse]\nTwo\n\n> One is\n>\n> Two\n\n\"I am \"here\",\ntoday\"\n-- Zoë, The Book, chapter 2\n\n".toList)
      = some (.ok (ps, [])) ∧ shownAll ps = [.text (.admonition .note) [gap, deep], .text .literal [code, code2], .text .verse [two],
        .quotes [.text .paragraph [one], .text .paragraph [two]], .quoted [here, today] [zoe] (some [book])] := by
  rw [← doc_source]
  refine C94_paragraphs_partial [] _ [10] (.inl rfl) doc ?_ _ (laid_joined ?_) (by simp) 8 (by decide)
  · intro d hd
    simp only [doc, List.mem_cons, List.not_mem_nil, or_false] at hd
    rcases hd with h | h | h | h | h <;> subst h
    · exact note_written
    · exact code_written
    · exact style_written
    · exact marked_written
    · exact quote_written
  · decide +kernel
end

mutual
private theorem same_eq : ∀ {a b : Shown}, a.same b = true → a = b
  | .text .., .text .., h => by simp_all [Shown.same]
  | .quoted .., .quoted .., h => by simp_all [Shown.same]
  | .quotes a, .quotes b, h => by rw [sameAll_eq (a := a) (b := b) (by simpa [Shown.same] using h)]
  | .text .., .quoted .., h | .text .., .quotes _, h | .quoted .., .text .., h | .quoted .., .quotes _, h | .quotes _, .text .., h
  | .quotes _, .quoted .., h => by simp [Shown.same] at h
private theorem sameAll_eq : ∀ {a b : List Shown}, sameAll a b = true → a = b
  | [], [], _ => rfl
  | a :: as, b :: bs, h => by
    simp only [sameAll, Bool.and_eq_true] at h
    rw [same_eq h.1, sameAll_eq h.2]
  | [], _ :: _, h | _ :: _, [], h => by simp [sameAll] at h
end

/-- what is shown of a source text, and the lines that are lost -/
def Gives (s : String) (shown : List Shown) (lost : List (List String)) : Prop :=
  ∃ ps rest, read [] (fun _ => false) 20 (encode s.toList) = some (.ok (ps, rest)) ∧ shownAll ps = shown ∧ rest.map texts = lost.map (·.map String.toList)

/-- the program panics with a source text -/
def Panics (s : String) : Prop := read [] (fun _ => false) 20 (encode s.toList) = some (.error .panic)

private theorem gives_of {s shown lost} (h : (read [] (fun _ => false) 20 (encode s.toList)).any (fun r => match r with
    | .ok (ps, rest) => sameAll (shownAll ps) shown && rest.map texts == lost.map (·.map String.toList)
    | _ => false) = true) : Gives s shown lost := by
  unfold Gives
  cases hr : read [] (fun _ => false) 20 (encode s.toList) with
  | none => rw [hr] at h; cases h
  | some r =>
    rw [hr] at h
    match r, h with
    | .ok (ps, rest), h =>
      simp only [Option.any_some, Bool.and_eq_true, beq_iff_eq] at h
      exact ⟨ps, rest, rfl, sameAll_eq h.1, h.2⟩

private theorem panics_of {s} (h : (read [] (fun _ => false) 20 (encode s.toList)).any (fun r => match r with
    | .error .panic => true
    | _ => false) = true) : Panics s := by
  unfold Panics
  cases hr : read [] (fun _ => false) 20 (encode s.toList) with
  | none => rw [hr] at h; cases h
  | some r =>
    rw [hr] at h
    match r, h with
    | .error .panic, _ => rfl

/-- **C94 violated**: a label without text ends the document: everything behind it is lost. -/
theorem C94_empty_label_violated : Gives "NOTE: \n\nfoo bar\n" [] [["foo bar"]] :=
  gives_of (by decide +kernel)

/-- **C94 violated**: an indented paragraph that begins like an admonition is not literal text. -/
theorem C94_indented_label_violated : Gives "  NOTE: a b\n" [.text (.admonition .note) ["a b".toList]] [] :=
  gives_of (by decide +kernel)

/-- **C94 violated**: what is quoted ends at a line in brackets: the rest of the quote is not shown. -/
theorem C94_quote_line_lost_violated :
    Gives "\"a\n[x]\nb\"\n-- me, there\n" [.quoted ["a".toList] ["me".toList] (some ["there".toList])] [] :=
  gives_of (by decide +kernel)

/-- **C94 violated**: a quote that begins with a bracket is not shown at all. -/
theorem C94_quote_lost_violated : Gives "\"[[a]]\"\n-- me\n" [.quoted [] ["me".toList] none] [] :=
  gives_of (by decide +kernel)

/-- **C94 violated**: the name of somebody in brackets is not shown. -/
theorem C94_credit_lost_violated : Gives "\"a\"\n-- [me]\n" [.quoted ["a".toList] [] none] [] :=
  gives_of (by decide +kernel)

/-- **C94 violated**: the program panics when nothing is quoted. -/
theorem C94_empty_quote_violated : Panics "\"\"\n-- me\n" :=
  panics_of (by decide +kernel)

/-- **C94 violated**: the program panics when nobody is named before the comma. -/
theorem C94_empty_credit_violated : Panics "\"a\"\n-- , me\n" :=
  panics_of (by decide +kernel)

/-- **C94 violated**: the program panics in a quote with a line in brackets before an empty line. -/
theorem C94_marked_brackets_violated : Panics "> a\n[foo]\n>\n> b\n" :=
  panics_of (by decide +kernel)

end Verif.Props

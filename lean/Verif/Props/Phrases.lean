import Verif.Lemmas.PhraseText
import Verif.Lemmas.LooseMarks
import Verif.Props.Inlines
/-!
C67: formatted phrases are recognised.
-/
namespace Verif.Props
open Verif Verif.Inlines TokenKind

/-- **C67**, partial: if a paragraph is written from text and from phrases between `*`, `_`, backquotes or `#`, nested as
deep as one likes, over as many lines as one likes, and the marks stand where the language allows them, then it is parsed to
exactly this text and these phrases.

Missing: unconstrained phrases, superscript and subscript, quotes, attribute lists before a phrase, text with further
characters, phrases inside a phrase of the same kind. `C67_…_violated` show phrases that are not recognised. -/
theorem C67_phrases_are_recognised_partial {env : Env} {subs : Substitutions} {ps : List Ph} (hw : WellFormed ps)
    (hstop : ∀ l, env.stops l = false) (hf : subs.contains .inlineFormatting = true) :
    ∃ o, parse env subs (linesOf (String.ofList (writtenAll ps))) = .ok o ∧ o.nodes = shownAll ps ∧ o.lines = [] := by
  obtain ⟨ctx, h⟩ := parse_written hstop hf hw
  exact ⟨_, h, rfl, rfl⟩

/-- **C67**, partial: without the substitution for formatting, the same paragraph is parsed to its text, marks and all.

Missing: as above, and verbatim text with callouts. -/
theorem C67_no_phrases_without_formatting_partial {env : Env} {subs : Substitutions} {ps : List Ph} (hw : WellFormed ps)
    (hstop : ∀ l, env.stops l = false) (hf : subs.contains .inlineFormatting = false) (hc : subs.contains .callouts = false) :
    ∃ o, parse env subs (linesOf (String.ofList (writtenAll ps))) = .ok o ∧ o.nodes = textNodes [] (writtenAll ps) ∧ o.lines = [] := by
  obtain ⟨ctx, h⟩ := parse_written_off hstop hf hc hw
  exact ⟨_, h, rfl, rfl⟩

/-- **C67**, partial: where the marks do not stand as the language asks for a phrase, they are text.

Missing: text with further characters and doubled marks; what is said here of digits after a mark and of marks at the end
of a line is what the code does, `C67_digit_…_violated` and `C67_mark_at_line_end_violated` show how it differs from the
language. -/
theorem C67_other_marks_are_text_partial {env : Env} {subs : Substitutions} {s : List Char} (hu : unformatted none s = true)
    (hn : s.getLast? ≠ some '\n') (hstop : ∀ l, env.stops l = false) (hc : subs.contains .callouts = false) :
    ∃ o, parse env subs (linesOf (String.ofList s)) = .ok o ∧ o.nodes = textNodes [] s ∧ o.lines = [] := by
  obtain ⟨ctx, h⟩ := parse_loose hstop hc hu hn
  exact ⟨_, h, rfl, rfl⟩

/-- **C67**, partial: a phrase that opens inside another does not go on after it: a mark inside the first phrase and a mark
behind it on the same line are text.

Missing: phrases over several lines (`C67_overlap_on_lines_violated`), more than one phrase. -/
theorem C67_no_overlap_partial {env : Env} {subs : Substitutions} {m : Mark} {x y : List Char} (h : overlaps m x y = true)
    (hstop : ∀ l, env.stops l = false) (hf : subs.contains .inlineFormatting = true) (hc : subs.contains .callouts = false) :
    ∃ o, parse env subs (linesOf (String.ofList (m.char :: (x ++ m.char :: y)))) = .ok o ∧
      o.nodes = .wrap (.span m.span none) (textNodes [] x) :: textNodes [] y ∧ o.lines = [] := by
  obtain ⟨ctx, h⟩ := parse_overlap hstop hf hc h
  exact ⟨_, h, rfl, rfl⟩

/-- texts without phrases: after a letter, before a space, without an end, before a letter, crossing ends -/
example : unformatted none "snake_case_name, 2 * 3 * 4, a*b* and _open,\nx`y z #1, *a*b.".toList = true ∧
    overlaps .bold "a _b `c".toList " d_ e` *f".toList = true ∧ Substitutions.normal.contains .callouts = false := by decide +kernel

/-- nested phrases on two lines -/
def phrases : List Ph :=
  [.text "A ".toList, .span .bold [.text "b ".toList, .span .italic [.text "c".toList], .text ",\n".toList,
    .span .mono [.span .highlight [.text "d e".toList]]], .text ", f. ".toList, .span .italic [.text "g".toList], .text "!".toList]

/-- they meet the condition, and this is how they are written -/
example : WellFormed phrases ∧ writtenAll phrases = "A *b _c_,\n`#d e#`*, f. _g_!".toList ∧
    Substitutions.normal.contains .inlineFormatting = true ∧
    Substitutions.onlySpecialChars.contains .inlineFormatting = false ∧
    Substitutions.onlySpecialChars.contains .callouts = false := by decide +kernel

/-- and this is how they are shown -/
example : shownAll phrases = [.leaf (.text "A ".toList), .wrap (.span .bold none) [.leaf (.text "b ".toList),
    .wrap (.span .italic none) [.leaf (.text "c".toList)], .leaf (.text ",".toList), .leaf .newline,
    .wrap (.span .mono none) [.wrap (.span .highlight none) [.leaf (.text "d e".toList)]]], .leaf (.text ", f. ".toList),
    .wrap (.span .italic none) [.leaf (.text "g".toList)], .leaf (.text "!".toList)] := by decide +kernel

/-- **C67**, violated for unconstrained phrases: `**b**` before a phrase that ends on a later line. -/
theorem C67_unconstrained_violated : nodesOf (parse para .normal (linesOf "**b** *c\nd*")) =
    .ok [.wrap (.span .bold none) [], .leaf (.text "b** ".toList),
      .wrap (.span .bold none) [.leaf (.text "c".toList), .leaf .newline, .leaf (.text "d".toList)]] := by decide +kernel

/-- **C67**, violated for a phrase inside a phrase of the same kind: the outer `_` is not recognised, although its mark is
closed (`_a … f_`). -/
theorem C67_same_kind_violated : nodesOf (parse para .normal (linesOf "_a *b* `c _d_ e` f_ g")) =
    .ok [.leaf (.text "_a ".toList), .wrap (.span .bold none) [.leaf (.text "b".toList)], .leaf (.text " ".toList),
      .wrap (.span .mono none) [.leaf (.text "c ".toList), .wrap (.span .italic none) [.leaf (.text "d".toList)],
        .leaf (.text " e".toList)], .leaf (.text " f_ g".toList)] := by decide +kernel

/-- **C67**, violated for a mark inside a phrase of another kind: the `*` inside the backquotes ends nothing, so that the
phrase in bold goes on to the end of the paragraph, although there is no mark that closes it. -/
theorem C67_mark_in_other_phrase_violated : nodesOf (parse para .normal (linesOf "*a _b_ `c* d` e")) =
    .ok [.wrap (.span .bold none) [.leaf (.text "a ".toList), .wrap (.span .italic none) [.leaf (.text "b".toList)],
      .leaf (.text " ".toList), .wrap (.span .mono none) [.leaf (.text "c* d".toList)], .leaf (.text " e".toList)]] := by
  decide +kernel

/-- **C67**, violated after punctuation: the phrase is recognised after a comma, but not after a dot. -/
theorem C67_after_dot_violated :
    nodesOf (parse para .normal (linesOf "x,*a*")) =
      .ok [.leaf (.text "x,".toList), .wrap (.span .bold none) [.leaf (.text "a".toList)]] ∧
    nodesOf (parse para .normal (linesOf "x.*a*")) = .ok [.leaf (.text "x.*a*".toList)] := by decide +kernel

/-- **C67**, violated before a digit: a letter after the closing mark keeps the marks text, a digit does not. -/
theorem C67_digit_after_mark_violated :
    nodesOf (parse para .normal (linesOf "*a*b")) = .ok [.leaf (.text "*a*b".toList)] ∧
    nodesOf (parse para .normal (linesOf "*a*1")) =
      .ok [.wrap (.span .bold none) [.leaf (.text "a".toList)], .leaf (.text "1".toList)] := by decide +kernel

/-- **C67**, violated at the end of a line: the mark stands before white space, and still opens a phrase; the line end is
lost. -/
theorem C67_mark_at_line_end_violated : nodesOf (parse para .normal (linesOf "a *\nb* c")) =
    .ok [.leaf (.text "a ".toList), .wrap (.span .bold none) [.leaf (.text "b".toList)],
      .leaf (.text " c".toList)] := by decide +kernel

/-- **C67**, violated for phrases over several lines: the phrase in italics opens inside the one in bold and goes
on after its end, so that the phrase in bold has no end. -/
theorem C67_overlap_on_lines_violated : nodesOf (parse para .normal (linesOf "*a _b\nc* d\ne_ f")) =
    .ok [.wrap (.span .bold none) [.leaf (.text "a ".toList), .wrap (.span .italic none) [.leaf (.text "b".toList), .leaf .newline,
      .leaf (.text "c* d".toList), .leaf .newline, .leaf (.text "e".toList)], .leaf (.text " f".toList)]] := by decide +kernel

end Verif.Props

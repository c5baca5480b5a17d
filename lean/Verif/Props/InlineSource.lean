import Verif.Lemmas.InlineText
import Verif.Lemmas.CommentLines
import Verif.Props.Inlines
/-!
C66: inline parsing keeps the text.
-/
namespace Verif.Props
open Verif Verif.Inlines TokenKind

/-- **C66** (for tokens), partial: if lines of tokens that meet `KeptLine` are parsed, nothing is left over and the nodes are
what is written in the lines: no text is lost, repeated or moved. An attribute reference counts as the text of
its value.

Missing: text that does not meet `KeptLine` (`C66_…_violated` and the lists of `DESIGN.md`), verbatim text with callouts,
table cells, links with a list of attributes in the brackets, the other macros with brackets (`unsupported`). -/
theorem C66_tokens_are_kept_partial {refs : Bool} {env : Env} {subs : Substitutions} {lines : List Line} {o : Out}
    (h : parse env subs lines = .ok o) (hstop : ∀ l, env.stops l = false) (hcell : env.tableCell = false)
    (hcallouts : subs.contains .callouts = false) (hrefs : refs = true → subs.contains .attrRefs = true)
    (hl : ∀ l ∈ lines, KeptLine refs l) : o.lines = [] ∧ Reads o.nodes (sourceOf lines) :=
  parse_keeps h hstop hcell ⟨hcallouts, hrefs⟩ hl

/-- **C66** (for text), partial: a paragraph of plain text, whatever its inline markup, is parsed to nodes that are what is
written in it. -/
theorem C66_text_is_kept_partial {env : Env} {subs : Substitutions} {s : String} {o : Out} (hs : PlainText s.toList)
    (h : parse env subs (linesOf s) = .ok o) (hstop : ∀ l, env.stops l = false) (hcell : env.tableCell = false)
    (hcallouts : subs.contains .callouts = false) : o.lines = [] ∧ Reads o.nodes s.toList := by
  obtain ⟨h1, h2⟩ := linesOf_plain s hs
  rw [← h2]
  exact parse_keeps (r := false) h hstop hcell ⟨hcallouts, nofun⟩ h1

/-- **C66** (for comment lines), partial: a comment line hides nothing but itself: the text lines of a paragraph are shown
in their order with line ends between them, wherever and however many comment lines stand between, before or behind them.

Missing: markup in the text lines. A comment line may close a phrase (`C66_comment_closes_phrase_violated`). -/
theorem C66_comment_lines_partial {env : Env} {subs : Substitutions} {ps : List PLine} (hok : ∀ p ∈ ps, p.ok = true)
    (hstop : ∀ l, env.stops l = false) (hcallouts : subs.contains .callouts = false) :
    ∃ o, parse env subs (ps.map PLine.line) = .ok o ∧ o.nodes.filter isShown = linesNodes (textsOf ps) ∧ o.lines = [] :=
  parse_lines hstop hcallouts hok

/-- lines with comments between and behind them -/
example : ∃ ps : List PLine, (∀ p ∈ ps, p.ok = true) ∧ ps.map (fun p => p.line.toks.map (·.lexeme)) =
      (linesOf "one, two\n// *three\nfour\n//\n//five").map (fun l => l.toks.map (·.lexeme)) ∧
    textsOf ps = ["one, two".toList, "four".toList] := by
  refine ⟨[.text "one, two".toList, .comment ((linesOf "one, two\n// *three\nfour\n//\n//five")[1]'(by decide +kernel)), .text "four".toList,
    .comment ((linesOf "one, two\n// *three\nfour\n//\n//five")[3]'(by decide +kernel)),
    .comment ((linesOf "one, two\n// *three\nfour\n//\n//five")[4]'(by decide +kernel))], ?_, ?_, ?_⟩ <;> decide +kernel

/-- **C66**, violated: a mark in a comment line makes the mark before it open a phrase, which is never closed. -/
theorem C66_comment_closes_phrase_violated : nodesOf (parse para .normal (linesOf "a *b\n// c* d\ne")) =
    .ok [.leaf (.text "a ".toList), .wrap (.span .bold none) [.leaf (.text "b".toList), .leaf .newline,
      .leaf (.lineComment " c* d".toList), .leaf (.text "e".toList)]] := by decide +kernel

/-- a paragraph with most kinds of markup -/
def keptSample : String :=
  "See https://x.org/a[the *page*^], link:b/c.html['our'] or xref:sec[*a* b] and <http://y.org>footnote:[not\nthis _one_]. A *b _c_* [.red]#d# \\_d_, ``x``y and `+lit+`\nfoo [[x]]y <<a,b *c*>> -- https://foo.bar/baz (C) `mono` +\nand \"`q`\" H~2~O x^2^ don't -> a...\n#hi# **un** -- end"

/-- it meets the conditions -/
example : PlainText keptSample.toList ∧ (parse para .normal (linesOf keptSample)).toOption.isSome = true ∧
    Substitutions.normal.contains .callouts = false ∧ (linesOf keptSample).length = 5 :=
  ⟨⟨by decide +kernel, by decide +kernel⟩, by decide +kernel, by decide, by decide +kernel⟩

/-- a line with an attribute reference and the tokens of its value -/
def refLine : Line :=
  Line.new [⟨Word, "foo".toList, none, false, 0⟩, ⟨Whitespace, " ".toList, some 'o', false, 3⟩,
    ⟨AttrRef, "{name}".toList, some ' ', false, 4⟩, ⟨Star, "*".toList, none, true, 4⟩, ⟨Word, "bar".toList, none, true, 4⟩,
    ⟨Star, "*".toList, some '}', false, 10⟩]

/-- it meets the conditions for tokens -/
example : KeptLine true refLine ∧ (parse para .normal [refLine]).toOption.isSome = true := by
  refine ⟨⟨⟨?_, by decide, by decide, by decide, nofun, fun _ => by decide, fun _ => by decide, fun _ => .inr ⟨by decide, by decide⟩⟩,
    by decide, by decide, by decide⟩, by decide +kernel⟩
  intro t ht
  simp only [refLine, Line.new, List.mem_cons, List.not_mem_nil, or_false] at ht
  rcases ht with rfl | rfl | rfl | rfl | rfl | rfl <;> first | rfl | trivial | (intro c hc; simp at hc; simp [hc])

/-- nodes that end with a leaf are not left open -/
theorem reads_leaf {ns : List Node} {l : Leaf} {s : List Char} (h : Reads (ns ++ [.leaf l]) s) : Srcs (ns ++ [.leaf l]) s := by
  rcases h with h | h
  · exact h
  · generalize hm : ns ++ [Node.leaf l] = m at h
    cases h with
    | last _ _ _ _ => have := congrArg List.getLast? hm; simp at this
    | inner _ _ _ _ => have := congrArg List.getLast? hm; simp at this
    | note _ _ _ => have := congrArg List.getLast? hm; simp at this
    | noteInner _ _ _ => have := congrArg List.getLast? hm; simp at this

/-- **C66** does not hold for all text: an attribute list before a closing curly quote is moved behind the quote
(`mod.rs:711-714` leaves it for the next text). -/
theorem C66_moved_attributes_violated : ∃ ns, nodesOf (parse para .normal (linesOf "[.a]`\" foo")) = .ok ns ∧
    ¬ Reads ns "[.a]`\" foo".toList := by
  refine ⟨[.leaf (.curly .rightDouble), .leaf (.text "[.a] foo".toList)], by decide +kernel, ?_⟩
  intro h
  have h := reads_leaf (ns := [.leaf (.curly .rightDouble)]) h
  generalize hs : "[.a]`\" foo".toList = s at h
  cases h with
  | cons h1 h2 =>
    cases h1 with
    | leaf h1 => cases h1; exact absurd (congrArg List.head? hs) (by simp [curlySource])

/-- **C66** does not hold for all text: after an escaped bracket in the name of an anchor, text is lost
(`parse_attr_list.rs:77-78`: the name ends at the escaped bracket, two tokens are dropped). -/
theorem C66_lost_after_bracket_violated : ∃ ns, nodesOf (parse para .normal (linesOf "[[a\\]b]] c")) = .ok ns ∧
    ¬ Reads ns "[[a\\]b]] c".toList := by
  refine ⟨[.wrap (.anchor "a\\".toList false) [], .leaf (.text "]] c".toList)], by decide +kernel, ?_⟩
  intro h
  have h := reads_leaf (ns := [.wrap (.anchor "a\\".toList false) []]) h
  generalize hs : "[[a\\]b]] c".toList = s at h
  cases h with
  | cons h1 h2 =>
    cases h2 with
    | cons h2 h3 =>
      cases h3
      cases h2 with
      | leaf h2 =>
        cases h2
        cases h1 with
        | closed h1 => cases h1
        | anchor => exact absurd hs (by decide)
        | anchorComma => exact absurd hs (by decide)
        | note h1 => cases h1

/-- **C66** does not hold for all text: three dashes at the end of a line are read as two (`inline_utils.rs:152-158`). -/
theorem C66_three_dashes_violated :
    nodesOf (parse para .normal (linesOf "a ---\nb")) = nodesOf (parse para .normal (linesOf "a --\nb")) ∧
      nodesOf (parse para .normal (linesOf "a --- b")) ≠ nodesOf (parse para .normal (linesOf "a -- b")) := by
  decide +kernel

/-- A span may be left open, with the closing mark in another span: the bold text here has no end. The text is kept. -/
theorem C66_unclosed_span : nodesOf (parse para .normal (linesOf "*a _b_ `c* d` e")) = .ok [.wrap (.span .bold none)
    [.leaf (.text "a ".toList), .wrap (.span .italic none) [.leaf (.text "b".toList)], .leaf (.text " ".toList), .wrap (.span .mono none) [.leaf (.text "c* d".toList)], .leaf (.text " e".toList)]] := by
  decide +kernel

end Verif.Props

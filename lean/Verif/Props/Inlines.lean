import Verif.Lemmas.InlinesSafe
import Verif.Model.InlineText
/-!
C64: inline parsing ends and does not panic.
-/
namespace Verif.Props
open Verif Verif.Inlines TokenKind

/-- **C64** (termination). Parsing the inline text of a block ends, whatever the tokens, the substitutions and the places
where the text stops. -/
theorem C64_inline_parsing_ends (env : Env) (subs : Substitutions) (lines : List Line) :
    parse env subs lines ≠ .error .diverged :=
  (go_cost env _ subs [] ⟨[], []⟩ none .none none lines (by simp [curCost])).1

/-- a paragraph that nothing stops -/
def para : Env := { stops := fun _ => false, alnum := Char.isAlphanum }

/-- **C64** (no panic), partial: text that meets `Safe` (of the macros with brackets only links with a closed text that is not in quotes,
cross references and footnotes; no index terms, no escaped closing bracket, no two backslashes and no URL scheme before the end of the line or of a cross reference or anchor, known URL
schemes only, attribute lists that can be read) is parsed to a list of nodes.

Missing: the constructs that are not modelled, and the inputs on which the code does panic (`C64_…_violated`). -/
theorem C64_no_panic_partial (env : Env) (subs : Substitutions) (lines : List Line) (h : ∀ l ∈ lines, Safe l.toks) :
    ∃ o, parse env subs lines = .ok o := by
  rcases go_safe env (cost lines + 1) subs [] ⟨[], []⟩ none .none none lines (by simp) h with h1 | ⟨o, h1, _⟩
  · exact absurd h1 (C64_inline_parsing_ends env subs lines)
  · exact ⟨o, h1⟩

/-- texts that meet the condition, and nodes -/
example : ∀ l ∈ linesOf "See https://x.org/a[the *page*^], link:b/c.html[our b c] or xref:sec[*a* b] and <http://y.org>footnote:[not\nthis _one_].",
    Safe l.toks := by decide +kernel

example : ∀ l ∈ linesOf "A *b _c_* [.red]#d# \\_d_\nfoo [[x]]y <<a,b>> -- https://foo.bar/baz (C) `mono` and \"`q`\".",
    Safe l.toks := by decide +kernel

example : nodesOf (parse para .normal (linesOf "A *b _c_* \\_d_\nfoo <<a,b>> -- (C)")) = .ok [
    .leaf (.text "A ".toList),
    .wrap (.span .bold none) [.leaf (.text "b ".toList), .wrap (.span .italic none) [.leaf (.text "c".toList)]],
    .leaf (.text " ".toList), .leaf .discarded, .leaf (.text "_d_".toList), .leaf .newline,
    .leaf (.text "foo ".toList), .wrap (.xref "a".toList true) [.leaf (.text "b".toList)],
    .leaf (.dashes 2 .none), .leaf (.symbol .copyright)] := by decide +kernel

/-- **C64** does not hold for all text: two backslashes at the end of a line panic (`mod.rs:840` unwraps the token after
them). -/
theorem C64_two_backslashes_violated :
    parse para .normal (linesOf "foo \\\\") = .error .panic ∧ parse para .verbatim (linesOf "foo \\\\") = .error .panic := by
  decide +kernel

/-- **C64** does not hold for all text: the scheme of a URL at the end of a line panics (`mod.rs:852` unwraps the last token
after it), also at the end of the text of a cross reference. -/
theorem C64_scheme_at_end_violated :
    parse para .normal (linesOf "see http://") = .error .panic ∧
      parse para .normal (linesOf "<<a,http://>> b") = .error .panic := by decide +kernel

/-- **C64** does not hold for all text: a URL with the scheme `mailto://` panics (`mod.rs:858` unwraps the scheme). -/
theorem C64_mailto_violated : parse para .normal (linesOf "mailto://foo bar") = .error .panic := by decide +kernel

/-- **C64** does not hold for all text: an escaped bracket in the text of an anchor panics (`parse_attr_list.rs:99` asserts
that two brackets close the anchor). -/
theorem C64_bracket_in_anchor_violated : parse para .normal (linesOf "[[a,b\\]c]]") = .error .panic := by decide +kernel

/-- **C64** does not hold for all text: two quotes in the brackets of a link panic (the text is empty, `mod.rs:28` unwraps
its place). -/
theorem C64_empty_quotes_violated : parse para .normal (linesOf "https://x.org[\"\"]") = .error .panic := by decide +kernel

/-- **C64** does not hold for all text: an opening bracket too many in the text of a link panics (`parse_attr_list.rs:160`
asserts that a bracket closes the text; without the assertion the last token of the line would be lost). -/
theorem C64_open_bracket_in_link_violated : parse para .normal (linesOf "https://x.org[a[b] c") = .error .panic := by decide +kernel

/-- **C64** does not hold for all text: an unknown scheme panics with brackets, too (`mod.rs:934` unwraps the scheme). -/
theorem C64_mailto_brackets_violated : parse para .normal (linesOf "mailto://foo[bar]") = .error .panic := by decide +kernel

end Verif.Props

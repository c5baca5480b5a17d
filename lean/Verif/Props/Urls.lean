import Verif.Lemmas.Urls
import Verif.Props.Inlines
/-!
C73: bare URLs become links to themselves.
-/
namespace Verif.Props
open Verif Verif.Inlines TokenKind

/-- **C73**, partial: a URL in a line of text becomes a link to the URL, all of it and nothing else. A full stop, a question
mark or an exclamation mark at its end is text.

Missing: URLs with a query or a port and URLs before a comma or a closing mark (`C73_…_violated`), the text of the link
after brackets, text with other markup, `mailto:` and `file:` URLs. -/
theorem C73_bare_urls_partial {env : Env} {subs : Substitutions} {pre url post : List Tok} {scheme : Tok} (h : UrlLine pre scheme url post)
    (hstop : ∀ l, env.stops l = false) (hm : subs.contains .macros = true) :
    ∃ o, parse env subs [Line.new (pre ++ scheme :: (url ++ post))] = .ok o ∧
      o.nodes = textNode (textOf pre) ++ .leaf (.link (scheme.lexeme ++ textOf url)) :: textNode (textOf post) ∧ o.lines = [] :=
  parse_url hstop hm h

/-- a line with a URL -/
example : ∃ pre scheme url post, UrlLine pre scheme url post ∧
    linesOf "See https://foo.bar/a-b_c/~d+1. Yes!" = [Line.new (pre ++ scheme :: (url ++ post))] ∧
    textOf pre = "See ".toList ∧ textOf url = "foo.bar/a-b_c/~d+1".toList ∧ Substitutions.normal.contains .macros = true := by
  refine ⟨(tokensOf "See https://foo.bar/a-b_c/~d+1. Yes!").take 2, (tokensOf "See https://foo.bar/a-b_c/~d+1. Yes!")[2]'(by decide +kernel),
    ((tokensOf "See https://foo.bar/a-b_c/~d+1. Yes!").drop 3).dropLast.dropLast.dropLast.dropLast,
    (tokensOf "See https://foo.bar/a-b_c/~d+1. Yes!").drop ((tokensOf "See https://foo.bar/a-b_c/~d+1. Yes!").length - 4),
    ⟨?_, ?_, ?_, ?_, ?_, ?_, ?_, ?_⟩, ?_, ?_, ?_, ?_⟩
  · decide +kernel
  · decide +kernel
  · decide +kernel
  · decide +kernel
  · decide +kernel
  · intro t ht e
    have : (((tokensOf "See https://foo.bar/a-b_c/~d+1. Yes!").drop 3).dropLast.dropLast.dropLast.dropLast.getLast?.map Tok.kind) ≠ some Dots := by
      decide +kernel
    rw [ht] at this
    exact this (by simp [e])
  · decide +kernel
  · decide +kernel
  · decide +kernel
  · decide +kernel
  · decide +kernel
  · decide

/-- **C73**, violated: the link leads to the URL without its query. -/
theorem C73_query_violated : nodesOf (parse para .normal (linesOf "https://foo.bar/find?q=1")) =
    .ok [.leaf (.link "https://foo.bar/find".toList), .leaf (.text "?q=1".toList)] := by decide +kernel

/-- **C73**, violated: the link leads to the URL without its port and path. -/
theorem C73_port_violated : nodesOf (parse para .normal (linesOf "http://localhost:8080/x")) =
    .ok [.leaf (.link "http://localhost".toList), .leaf (.text ":8080/x".toList)] := by decide +kernel

/-- **C73**, violated: a comma after the URL is part of the link, although a full stop is not. -/
theorem C73_comma_violated : nodesOf (parse para .normal (linesOf "http://foo.bar, and http://baz.")) =
    .ok [.leaf (.link "http://foo.bar,".toList), .leaf (.text " and ".toList), .leaf (.link "http://baz".toList),
      .leaf (.text ".".toList)] := by decide +kernel

/-- **C73**, violated: the mark that closes a phrase in italics is part of the link, although that of a phrase in bold is
not. -/
theorem C73_closing_mark_violated :
    nodesOf (parse para .normal (linesOf "*http://foo.bar*")) = .ok [.wrap (.span .bold none) [.leaf (.link "http://foo.bar".toList)]] ∧
    nodesOf (parse para .normal (linesOf "_http://foo.bar_")) = .ok [.wrap (.span .italic none) [.leaf (.link "http://foo.bar_".toList)]] := by
  decide +kernel

end Verif.Props

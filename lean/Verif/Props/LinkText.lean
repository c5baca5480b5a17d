import Verif.Lemmas.LinkText
import Verif.Props.InlineSource
/-!
C93: texts of links in quotes and with equal signs.
-/
namespace Verif.Props
open Verif Verif.Inlines TokenKind

/-- **C93** (quotes and equal signs), partial: the text of a URL or of `link:` in double quotes may have equal signs in it, and is shown without
the quotes; without quotes, equal signs next to each other are shown as they are.

Missing: other markup in the text, attributes in the brackets, several lines. -/
theorem C93_equals_partial {env : Env} {subs : Substitutions} {pre address text shown post : List Tok} {name opening closing : Tok} {target : List Char}
    (hb : BracketLine pre name address opening text closing post) (ht : ReadAs text shown)
    (hn : (name.kind = UriScheme ∧ isScheme name.lexeme = true ∧ target = name.lexeme ++ textOf address) ∨
      (name.kind = MacroName ∧ name.lexeme = "link:".toList ∧ target = textOf address))
    (hstop : ∀ l, env.stops l = false) (hm : subs.contains .macros = true) :
    ∃ o, parse env subs [Line.new (pre ++ name :: (address ++ opening :: (text ++ closing :: post)))] = .ok o ∧
      o.nodes = textNode (textOf pre) ++ .wrap (.link target false true) (textNode (textOf shown)) :: textNode (textOf post) ∧ o.lines = [] := by
  rcases hn with ⟨hk, hs, rfl⟩ | ⟨hk, hs, rfl⟩
  · refine parse_url_readAs hstop hm hb ht hk ?_
    simp only [isScheme, List.any_cons, List.any_nil, Bool.or_false, Bool.or_eq_true, decide_eq_true_eq] at hs
    simp only [knownScheme, Bool.or_eq_true, decide_eq_true_eq]
    rcases hs with h | h | h | h <;> simp [h]
  · exact parse_macro_readAs hstop hm hb ht hk hs

private def quotedToks : List Tok := tokensOf "See https://x.org[\"a=b\"] now."
private def bareToks : List Tok := tokensOf "See link:a-b[c == d]."

/-- a line with a URL and a text in quotes -/
example : ∃ pre scheme address opening text shown closing post, BracketLine pre scheme address opening text closing post ∧ ReadAs text shown ∧
    linesOf "See https://x.org[\"a=b\"] now." = [Line.new (pre ++ scheme :: (address ++ opening :: (text ++ closing :: post)))] ∧
    scheme.kind = UriScheme ∧ isScheme scheme.lexeme = true ∧ textOf address = "x.org".toList ∧ textOf shown = "a=b".toList ∧
    textOf post = " now.".toList := by
  refine ⟨quotedToks.take 2, quotedToks[2]'(by decide +kernel), (quotedToks.drop 3).take 3, quotedToks[6]'(by decide +kernel),
    quotedToks[7]'(by decide +kernel) :: (quotedToks.drop 8).take 3 ++ [quotedToks[11]'(by decide +kernel)], (quotedToks.drop 8).take 3,
    quotedToks[12]'(by decide +kernel), quotedToks.drop 13, ⟨?_, ?_, ?_, ?_, ?_, ?_⟩, .quoted ?_ ?_ ?_ ?_, ?_, ?_, ?_, ?_, ?_, ?_⟩
  all_goals decide +kernel

/-- a line with `link:` and equal signs in the text -/
example : ∃ pre name address opening text closing post, BracketLine pre name address opening text closing post ∧ ReadAs text text ∧
    linesOf "See link:a-b[c == d]." = [Line.new (pre ++ name :: (address ++ opening :: (text ++ closing :: post)))] ∧
    name.kind = MacroName ∧ name.lexeme = "link:".toList ∧ textOf address = "a-b".toList ∧ textOf text = "c == d".toList := by
  refine ⟨bareToks.take 2, bareToks[2]'(by decide +kernel), (bareToks.drop 3).take 3, bareToks[6]'(by decide +kernel), (bareToks.drop 7).take 5,
    bareToks[12]'(by decide +kernel), bareToks.drop 13, ⟨?_, ?_, ?_, ?_, ?_, ?_⟩, .bare ?_ ?_, ?_, ?_, ?_, ?_, ?_⟩
  all_goals decide +kernel

end Verif.Props

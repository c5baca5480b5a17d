import Verif.Lemmas.Brackets
import Verif.Props.InlineSource
/-!
C93: the text in the brackets of a link, a cross reference or a footnote.
-/
namespace Verif.Props
open Verif Verif.Inlines TokenKind

/-- **C93** (URLs), partial: a URL with a text in brackets becomes a link to the URL, all of it and nothing else, and its
text is the text in the brackets with its phrases.

Missing: text with other markup in the brackets, attributes in the brackets, several lines; a URL with a bracket further on
in the line (`C93_far_bracket_violated`). -/
theorem C93_url_text_partial {env : Env} {subs : Substitutions} {pre address text post : List Tok} {scheme opening closing : Tok} {ps : List Ph}
    (hb : BracketLine pre scheme address opening text closing post) (hw : WellFormed ps) (ht : PhraseToks ps text)
    (hk : scheme.kind = UriScheme) (hs : isScheme scheme.lexeme = true) (hstop : ∀ l, env.stops l = false)
    (hf : subs.contains .inlineFormatting = true) (hm : subs.contains .macros = true) :
    ∃ o, parse env subs [Line.new (pre ++ scheme :: (address ++ opening :: (text ++ closing :: post)))] = .ok o ∧
      o.nodes = textNode (textOf pre) ++ .wrap (.link (scheme.lexeme ++ textOf address) false true) (shownAll ps) :: textNode (textOf post) ∧
      o.lines = [] := by
  refine parse_url_link hstop hf hm hb hw ht hk ?_
  simp only [isScheme, List.any_cons, List.any_nil, Bool.or_false, Bool.or_eq_true, decide_eq_true_eq] at hs
  simp only [knownScheme, Bool.or_eq_true, decide_eq_true_eq]
  rcases hs with h | h | h | h <;> simp [h]

/-- **C93** (links), partial: `link:address[text]` becomes a link to the address, and its text is the text in the brackets
with its phrases.

Missing: as for URLs. -/
theorem C93_link_text_partial {env : Env} {subs : Substitutions} {pre address text post : List Tok} {name opening closing : Tok} {ps : List Ph}
    (hb : BracketLine pre name address opening text closing post) (hw : WellFormed ps) (ht : PhraseToks ps text)
    (hk : name.kind = MacroName) (hs : name.lexeme = "link:".toList) (hstop : ∀ l, env.stops l = false)
    (hf : subs.contains .inlineFormatting = true) (hm : subs.contains .macros = true) :
    ∃ o, parse env subs [Line.new (pre ++ name :: (address ++ opening :: (text ++ closing :: post)))] = .ok o ∧
      o.nodes = textNode (textOf pre) ++ .wrap (.link (textOf address) false true) (shownAll ps) :: textNode (textOf post) ∧ o.lines = [] :=
  parse_macro_link hstop hf hm hb hw ht hk hs

/-- **C93** (cross references and footnotes), partial: `xref:target[text]`, `footnote:[text]` and `footnote:name[text]` become
a cross reference and a footnote with the target, the name and the text.

Missing: phrases in the text, which may go on behind the bracket (`C93_phrase_leaves_bracket_violated`), and several lines
(`C93_line_end_violated`). -/
theorem C93_notes_partial {env : Env} {subs : Substitutions} {pre address text post : List Tok} {name opening closing : Tok} {w : Wrap}
    (hb : BracketLine pre name address opening text closing post) (ht : ∀ t ∈ text, isPlainTok t = true) (hk : name.kind = MacroName)
    (hw : name.lexeme = "xref:".toList ∧ w = .xrefMacro (textOf address) ∨
      name.lexeme = "footnote:".toList ∧ w = .footnote (if address = [] then none else some (textOf address)))
    (hstop : ∀ l, env.stops l = false) (hm : subs.contains .macros = true) :
    ∃ o, parse env subs [Line.new (pre ++ name :: (address ++ opening :: (text ++ closing :: post)))] = .ok o ∧
      o.nodes = textNode (textOf pre) ++ .wrap w (textNode (textOf text)) :: textNode (textOf post) ∧ o.lines = [] :=
  parse_note hstop hm hb ht hk hw

private def urlToks : List Tok := tokensOf "See https://x.org/a-b[the *new _p_*] now."
private def linkToks : List Tok := tokensOf "See link:a-b[*x*]."
private def noteToks : List Tok := tokensOf "A xref:part-1[first part], yes."
private def footToks : List Tok := tokensOf "A footnote:[first part]"

private def okTok (t : Tok) : Bool :=
  !t.attr && (((t.kind = Word || t.kind = Digits) && !t.lexeme.isEmpty && t.lexeme.all isWordChar) ||
    (match t.lexeme with | [c] => otherKind c = some t.kind | _ => false)) && (t.kind ≠ Digits || t.lexeme.all isDigitChar)

private theorem okTok_ok {t : Tok} (h : okTok t = true) : OkTok t := by
  simp only [okTok, Bool.and_eq_true, Bool.or_eq_true, Bool.not_eq_true', decide_eq_true_eq, List.isEmpty_eq_false_iff, List.all_eq_true] at h
  obtain ⟨⟨h1, h2⟩, h3⟩ := h
  refine ⟨h1, ?_, ?_⟩
  · rcases h2 with h2 | h2
    · exact .inl ⟨h2.1.1, h2.1.2, h2.2⟩
    · split at h2
      · rename_i c hc
        exact .inr ⟨c, hc, by simpa using h2⟩
      · cases h2
  · intro hk
    rcases h3 with h3 | h3
    · exact absurd hk h3
    · exact h3

private instance (p : Option Char) : (l : List Tok) → Decidable (Chained p l)
  | [] => .isTrue trivial
  | t :: ts =>
    have := instDecidableChained t.lexeme.getLast? ts
    inferInstanceAs (Decidable (_ ∧ _))

/-- a line with a link whose text has phrases -/
example : ∃ pre scheme address opening text closing post, BracketLine pre scheme address opening text closing post ∧
    PhraseToks [.text "the ".toList, .span .bold [.text "new ".toList, .span .italic [.text "p".toList]]] text ∧
    WellFormed [.text "the ".toList, .span .bold [.text "new ".toList, .span .italic [.text "p".toList]]] ∧
    linesOf "See https://x.org/a-b[the *new _p_*] now." = [Line.new (pre ++ scheme :: (address ++ opening :: (text ++ closing :: post)))] ∧
    scheme.kind = UriScheme ∧ isScheme scheme.lexeme = true ∧ textOf address = "x.org/a-b".toList ∧ textOf post = " now.".toList := by
  refine ⟨urlToks.take 2, urlToks[2]'(by decide +kernel), (urlToks.drop 3).take 5,
    urlToks[8]'(by decide +kernel), (urlToks.drop 9).take 9,
    urlToks[18]'(by decide +kernel), urlToks.drop 19, ⟨?_, ?_, ?_, ?_, ?_, ?_⟩, ⟨?_, ?_, ?_, ?_⟩, ?_, ?_, ?_, ?_, ?_, ?_⟩
  case refine_7 => exact fun t ht => okTok_ok ((by decide +kernel : ∀ t ∈ (urlToks.drop 9).take 9, okTok t = true) t ht)
  all_goals decide +kernel

/-- a line with a link -/
example : ∃ pre name address opening text closing post, BracketLine pre name address opening text closing post ∧
    PhraseToks [.span .bold [.text "x".toList]] text ∧ WellFormed [.span .bold [.text "x".toList]] ∧
    linesOf "See link:a-b[*x*]." = [Line.new (pre ++ name :: (address ++ opening :: (text ++ closing :: post)))] ∧
    name.kind = MacroName ∧ name.lexeme = "link:".toList ∧ textOf address = "a-b".toList := by
  refine ⟨linkToks.take 2, linkToks[2]'(by decide +kernel), (linkToks.drop 3).take 3,
    linkToks[6]'(by decide +kernel), (linkToks.drop 7).take 3,
    linkToks[10]'(by decide +kernel), linkToks.drop 11, ⟨?_, ?_, ?_, ?_, ?_, ?_⟩, ⟨?_, ?_, ?_, ?_⟩, ?_, ?_, ?_, ?_, ?_⟩
  case refine_7 => exact fun t ht => okTok_ok ((by decide +kernel : ∀ t ∈ (linkToks.drop 7).take 3, okTok t = true) t ht)
  all_goals decide +kernel

/-- a line with a cross reference -/
example : ∃ pre name address opening text closing post, BracketLine pre name address opening text closing post ∧
    (∀ t ∈ text, isPlainTok t = true) ∧ name.kind = MacroName ∧ name.lexeme = "xref:".toList ∧
    linesOf "A xref:part-1[first part], yes." = [Line.new (pre ++ name :: (address ++ opening :: (text ++ closing :: post)))] ∧
    textOf address = "part-1".toList ∧ textOf text = "first part".toList := by
  refine ⟨noteToks.take 2, noteToks[2]'(by decide +kernel), (noteToks.drop 3).take 3,
    noteToks[6]'(by decide +kernel), (noteToks.drop 7).take 3, noteToks[10]'(by decide +kernel), noteToks.drop 11,
    ⟨?_, ?_, ?_, ?_, ?_, ?_⟩, ?_, ?_, ?_, ?_, ?_, ?_⟩
  all_goals decide +kernel

/-- a line with a footnote without a name -/
example : ∃ pre name opening text closing post, BracketLine pre name [] opening text closing post ∧
    (∀ t ∈ text, isPlainTok t = true) ∧ name.kind = MacroName ∧ name.lexeme = "footnote:".toList ∧
    linesOf "A footnote:[first part]" = [Line.new (pre ++ name :: ([] ++ opening :: (text ++ closing :: post)))] ∧
    textOf text = "first part".toList := by
  refine ⟨footToks.take 2, footToks[2]'(by decide +kernel), footToks[3]'(by decide +kernel), (footToks.drop 4).take 3,
    footToks[7]'(by decide +kernel), footToks.drop 8, ⟨?_, ?_, ?_, ?_, ?_, ?_⟩, ?_, ?_, ?_, ?_, ?_⟩
  all_goals decide +kernel

/-- **C93**, violated: a URL and a bracket further on in the line are taken for one link, with all the text between them in
its address (`line.rs:469-484` looks for the bracket in all of the line; a text like this is not a link with brackets). -/
theorem C93_far_bracket_violated :
    nodesOf (parse para .normal (linesOf "https://x.org and link:b[c] d")) =
      .ok [.wrap (.link "https://x.org and link:b".toList false true) [.leaf (.text "c".toList)], .leaf (.text " d".toList)] ∧
    nodesOf (parse para .normal (linesOf "https://x.org is [not] it")) =
      .ok [.wrap (.link "https://x.org is ".toList false true) [.leaf (.text "not".toList)], .leaf (.text " it".toList)] := by
  decide +kernel

/-- **C93**, violated: the end of the line after a cross reference or a footnote is lost, the words are joined
(`mod.rs:164-210`); after a link it is kept. -/
theorem C93_line_end_violated :
    nodesOf (parse para .normal (linesOf "See xref:a[b]\nnext")) =
      .ok [.leaf (.text "See ".toList), .wrap (.xrefMacro "a".toList) [.leaf (.text "b".toList)], .leaf (.text "next".toList)] ∧
    nodesOf (parse para .normal (linesOf "See link:a[b]\nnext")) =
      .ok [.leaf (.text "See ".toList), .wrap (.link "a".toList false true) [.leaf (.text "b".toList)], .leaf .newline,
        .leaf (.text "next".toList)] := by decide +kernel

/-- **C93**, violated: a mark in the brackets of a footnote makes a phrase with a mark behind the brackets, and the footnote
does not end at its bracket. -/
theorem C93_phrase_leaves_bracket_violated : nodesOf (parse para .normal (linesOf "footnote:[*a] b* c]")) =
    .ok [.wrap (.footnote none) [.wrap (.span .bold none) [.leaf (.text "a] b".toList)], .leaf (.text " c".toList)]] := by decide +kernel

/-- **C93**, violated: brackets in the text of a footnote end it; in the text of a link they do not. -/
theorem C93_brackets_in_text_violated :
    nodesOf (parse para .normal (linesOf "footnote:[a [b] c]")) =
      .ok [.wrap (.footnote none) [.leaf (.text "a [b".toList)], .leaf (.text " c]".toList)] ∧
    nodesOf (parse para .normal (linesOf "https://x.org[a [b] c]")) =
      .ok [.wrap (.link "https://x.org".toList false true) [.leaf (.text "a [b] c".toList)]] := by decide +kernel

/-- **C93**, violated: a link in a phrase makes the parser forget the phrase (`parse_attr_list.rs:158` resets the context): a
second phrase in it may then go on behind its end. -/
theorem C93_phrase_forgotten_violated :
    nodesOf (parse para .normal (linesOf "*a _c* d_")) =
      .ok [.wrap (.span .bold none) [.leaf (.text "a _c".toList)], .leaf (.text " d_".toList)] ∧
    nodesOf (parse para .normal (linesOf "*a link:x[b] _c* d_")) =
      .ok [.wrap (.span .bold none) [.leaf (.text "a ".toList), .wrap (.link "x".toList false true) [.leaf (.text "b".toList)],
        .leaf (.text " ".toList), .wrap (.span .italic none) [.leaf (.text "c* d".toList)]]] := by decide +kernel

/-- **C93**, violated: a text that starts with two slashes is taken for a comment and disappears. -/
theorem C93_slashes_violated : nodesOf (parse para .normal (linesOf "https://x.org[// foo] b")) =
    .ok [.wrap (.link "https://x.org".toList false true) [], .leaf (.text " b".toList)] := by decide +kernel

end Verif.Props

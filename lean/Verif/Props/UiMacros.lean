import Verif.Lemmas.UiMacros
/-!
# C78: keys, buttons and menus

`kbd:[Ctrl+T]` shows the keys that are written in it, `btn:[OK]` the text in the brackets, `menu:File[Save > As]` the menu and
its items; a closing bracket is written with a backslash, and the text after the macro is kept. None of them panics.

The code does less than this. A key of two words is cut (`kbd:[Page Up+A]`), a bracket with a backslash is shown with it at the
start of `kbd:[…]` and ends `btn:[…]` and `menu:…[…]`, `btn:` with a target panics, a menu without items panics
in the HTML backend (in a build with overflow checks), and the texts are written without escaping.
-/
namespace Verif.Props
open Verif TokenKind Inlines Regex UiMacros UiMacros.Spec

/-- a token, for the examples -/
def uiTok (k : TokenKind) (s : String) : Tok := ⟨k, s.toList, none, false, 0⟩
/-- a bracket -/
def uiOpen : Tok := uiTok OpenBracket "["
/-- a bracket -/
def uiClose : Tok := uiTok CloseBracket "]"
/-- a backslash -/
def uiBack : Tok := uiTok Backslash "\\"

/-- No panic: the macro for keys and the macro for buttons when the bracket follows the name (the code asks this for keys), the
macro for menus always. -/
theorem C78_no_panic_partial (word : Char → Bool) (t : Tok) (l : List Tok) (h : continuesMacro t l = true) :
    (isKind OpenBracket l.head? = true → ∃ r, parseKbd word l = some r) ∧ (isKind OpenBracket l.head? = true → ∃ r, parseBtn l = some r) ∧ ∃ r, parseMenu l = some r :=
  ⟨kbd_some h, btn_some h, menu_some h⟩

/-- `kbd:[a\]]` -/
example : continuesMacro (uiTok MacroName "kbd:") [uiOpen, uiTok Word "a", uiBack, uiClose, uiClose] = true := by decide

/-- The keys are those written, and the text after the macro is kept. -/
theorem C78_keys_partial (word : Char → Bool) (o c : Tok) (body rest : List Tok) (s : List Char) (keys : List (List Char)) (hb : Body body s)
    (hs : isKind Backslash body.head? = false) (hc : c.kind = CloseBracket) (hk : Keys keys s) : parseKbd word (o :: body ++ c :: rest) = some (keys, rest) := by
  rw [List.cons_append, parseKbd, keysText_body hb none (by simp) (.inr hs) c rest hc]
  simp [discardAssert, hc, keysOf_written hk]

/-- The text of a button is the text in the brackets, and the text after the macro is kept. -/
theorem C78_button_partial (o c : Tok) (body rest : List Tok) (s : List Char) (hb : Body body s) (hs : ∀ t ∈ body, t.kind ≠ CloseBracket)
    (ho : o.kind = OpenBracket) (hc : c.kind = CloseBracket) : parseBtn (o :: body ++ c :: rest) = some (s, rest) := by
  rw [List.cons_append, parseBtn, discardAssert, if_pos ho]
  simp only [consumeUntil]
  rw [if_neg (by simp)]
  simp only [takeUntil_body hb CloseBracket hs hs c rest hc, discardAssert, hc, if_true, Option.map_some]

/-- The items of a menu are those written, and the text after the macro is kept. -/
theorem C78_menu_partial (o c : Tok) (target body rest : List Tok) (menu s : List Char) (items : List (List Char)) (ht : Body target menu) (hb : Body body s)
    (h1 : ∀ t ∈ target, t.kind ≠ OpenBracket ∧ t.kind ≠ CloseBracket) (h2 : ∀ t ∈ body, t.kind ≠ CloseBracket)
    (ho : o.kind = OpenBracket) (hc : c.kind = CloseBracket) (hi : Items items s) : parseMenu (target ++ o :: (body ++ c :: rest)) = some (menu :: items, rest) := by
  have e : macroTarget (target ++ o :: (body ++ c :: rest)) = some (menu, body ++ c :: rest) := by
    rw [macroTarget, consumeUntil, if_neg (by simp)]
    simp only [takeUntil_body ht OpenBracket (fun t h => (h1 t h).1) (fun t h => (h1 t h).2) o _ ho, discardAssert, ho, if_true, Option.map_some]
  rw [parseMenu, e]
  simp only [consumeUntil]
  rw [if_neg (by simp)]
  simp only [takeUntil_body hb CloseBracket h2 h2 c rest hc, discardAssert, hc, if_true, Option.map_some, items_split hi]

/-- The reader sees the keys with plus signs between them, the text of the button, and the menu and its items with arrows between
them, when no text has a `<` in it. -/
theorem C78_shown_partial (texts : List (List Char)) (h : ∀ s ∈ texts, '<' ∉ s) :
    seen false (kbdHtml texts) = between ['+'] texts ∧ (∀ s ∈ texts, seen false (btnHtml s) = s) ∧
      (2 ≤ texts.length → ∃ html, menuHtml texts = some html ∧ seen false html = between "&#160;&#8250;".toList texts) :=
  ⟨seen_kbdHtml texts h, fun s hs => seen_btnHtml s (h s hs), fun h2 => seen_menuHtml h h2⟩

/-! ### the hypotheses are met -/

/-- `Ctrl + +` -/
example : Keys [['C', 't', 'r', 'l'], ['+']] "Ctrl + +".toList :=
  .more (k := ['C', 't', 'r', 'l']) (a := []) (b := [' ']) (sep := '+') (.inr (.inr ⟨by decide, by decide⟩)) (by simp [Blank]) (by simp [Blank]; decide) (.inl rfl)
    (.one (k := ['+']) (a := [' ']) (b := []) (.inl rfl) (by simp [Blank]; decide) (by simp [Blank]))

/-- `Ctrl+\]` -/
example : Body [uiTok Word "Ctrl", uiTok Plus "+", uiBack, uiClose] "Ctrl+]".toList :=
  .tok (by decide) (by decide) (by decide) (.tok (by decide) (by decide) (by decide) (.bracket rfl rfl .nil))

/-- `Save > As` -/
example : Items ["Save".toList, "As".toList] "Save > As".toList :=
  .more (i := "Save".toList) (a := []) (b := [' ']) ⟨by decide, by decide, by decide, by decide⟩ (by simp [Blank]) (by simp [Blank]; decide)
    (.one (i := "As".toList) (a := [' ']) (b := []) ⟨by decide, by decide, by decide, by decide⟩ (by simp [Blank]; decide) (by simp [Blank]))

/-! ### what the code does otherwise -/

/-- `kbd:[Page Up+A]`: the keys are `Page` and `+`. -/
theorem C78_two_words_violated : keysOf (fun _ => false) "Page Up+A".toList = some ["Page".toList, "+".toList] := by decide +kernel

/-- `kbd:[\]]`: the key is shown with the backslash. -/
theorem C78_first_bracket_violated : parseKbd (fun _ => false) [uiOpen, uiBack, uiClose, uiClose] = some (["\\]".toList], []) := by decide +kernel

/-- `btn:[a\]b]` is a button `a`, and `b]` is text. -/
theorem C78_button_bracket_violated : Body [uiTok Word "a", uiBack, uiClose, uiTok Word "b"] "a]b".toList ∧
    continuesMacro (uiTok MacroName "btn:") [uiOpen, uiTok Word "a", uiBack, uiClose, uiTok Word "b", uiClose] = true ∧
    parseBtn [uiOpen, uiTok Word "a", uiBack, uiClose, uiTok Word "b", uiClose] = some (['a'], [uiTok Word "b", uiClose]) :=
  ⟨.tok (by decide) (by decide) (by decide) (.bracket rfl rfl (.tok (by decide) (by decide) (by decide) .nil)), by decide, by decide⟩

/-- `btn:foo[bar]` panics. -/
theorem C78_button_target_violated : continuesMacro (uiTok MacroName "btn:") [uiTok Word "foo", uiOpen, uiTok Word "bar", uiClose] = true ∧
    parseBtn [uiTok Word "foo", uiOpen, uiTok Word "bar", uiClose] = none := by decide

/-- `menu:File[]` has one item, and writing it panics. -/
theorem C78_menu_alone_violated : continuesMacro (uiTok MacroName "menu:") [uiTok Word "File", uiOpen, uiClose] = true ∧
    parseMenu [uiTok Word "File", uiOpen, uiClose] = some (["File".toList], []) ∧ menuHtml ["File".toList] = none := by decide

/-- `btn:[a <i> b]`: the text is written as markup. -/
theorem C78_markup_violated : btnHtml "a <i> b".toList = "<b class=\"button\">a <i> b</b>".toList ∧ seen false (btnHtml "a <i> b".toList) = "a  b".toList := by decide

end Verif.Props
